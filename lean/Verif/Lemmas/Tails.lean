import Verif.Lemmas.ZihIff

/-!
# Helper lemmas: where a zi'evla may fall apart

`check_zihevla_or_rafsi` asks whether tails of the word are brivla, for words of more than two syllables. Here: words of
two syllables have no such tails, and only those tails matter that stand behind a vowel.
-/

namespace Jvotci

open Spec

/-! ## Counting syllables -/

theorem syll_some {b : Spec.Before} {w : Str} {n : Nat} (h : Syllables b w n) {a : Char} (ha : a ∈ w) (hv : Vowel a) : 1 ≤ n := by
  induction h with
  | nil => cases ha
  | @letter b c w n hc _ ih =>
    rcases List.mem_cons.1 ha with rfl | ha
    · exact absurd hv (letter_not_vowel hc)
    · exact ih ha
  | nucleus => omega
  | glided => omega

/-- Syllables do not go across a consonant or apostrophe. -/
theorem syll_split {b : Spec.Before} {w : Str} {n : Nat} (h : Syllables b w n) : ∀ {x y : Str} {c : Char}, w = x ++ c :: y → ¬ Vowel c →
    ∃ n1 n2, Syllables b x n1 ∧ Syllables .letter y n2 ∧ n = n1 + n2 ∧ (Consonant c ∨ c = '\'') := by
  induction h with
  | nil => intro x y c e; simp at e
  | @letter b d w n hd hw ih =>
    intro x y c e hc
    cases x with
    | nil =>
      cases e
      exact ⟨0, n, .nil, hw, by omega, hd⟩
    | cons a x =>
      simp only [List.cons_append, List.cons.injEq] at e
      obtain ⟨rfl, e⟩ := e
      obtain ⟨n1, n2, h1, h2, h3, h4⟩ := ih e hc
      exact ⟨n1, n2, .letter hd h1, h2, h3, h4⟩
  | @nucleus b s w n hb hs hw ih =>
    intro x y c e hc
    rcases List.append_eq_append_iff.1 e with ⟨z, hz, hz2⟩ | ⟨z, hz, hz2⟩
    · obtain ⟨n1, n2, h1, h2, h3, h4⟩ := ih hz2 hc
      exact ⟨n1 + 1, n2, by rw [hz]; exact .nucleus hb hs h1, h2, by omega, h4⟩
    · cases z with
      | nil =>
        simp at hz hz2
        obtain ⟨n1, n2, h1, h2, h3, h4⟩ := ih (x := []) hz2.symm hc
        refine ⟨n1 + 1, n2, ?_, h2, by omega, h4⟩
        rw [← hz, ← List.append_nil s]
        exact .nucleus hb hs h1
      | cons d z =>
        simp only [List.cons_append, List.cons.injEq] at hz2
        obtain ⟨rfl, -⟩ := hz2
        exact absurd (nucleus_vowels hs c (by rw [hz]; simp)) hc
  | @glided b s w n hb hs hw ih =>
    intro x y c e hc
    rcases List.append_eq_append_iff.1 e with ⟨z, hz, hz2⟩ | ⟨z, hz, hz2⟩
    · obtain ⟨n1, n2, h1, h2, h3, h4⟩ := ih hz2 hc
      exact ⟨n1 + 1, n2, by rw [hz]; exact .glided hb hs h1, h2, by omega, h4⟩
    · cases z with
      | nil =>
        simp at hz hz2
        obtain ⟨n1, n2, h1, h2, h3, h4⟩ := ih (x := []) hz2.symm hc
        refine ⟨n1 + 1, n2, ?_, h2, by omega, h4⟩
        rw [← hz, ← List.append_nil s]
        exact .glided hb hs h1
      | cons d z =>
        simp only [List.cons_append, List.cons.injEq] at hz2
        obtain ⟨rfl, -⟩ := hz2
        exact absurd (glided_vowels hs c (by rw [hz]; simp)) hc

/-- Two vowels with something else between them. -/
theorem syll_two {b : Spec.Before} {w x y z : Str} {a c d : Char} {n : Nat} (h : Syllables b w n) (e : w = x ++ a :: y ++ d :: z)
    (ha : Vowel a) (hd : Vowel d) (hc : c ∈ y) (hcv : ¬ Vowel c) : 2 ≤ n := by
  obtain ⟨p, q, rfl⟩ := List.append_of_mem hc
  obtain ⟨n1, n2, h1, h2, h3, -⟩ := syll_split h (x := x ++ a :: p) (y := q ++ d :: z) (c := c) (by rw [e]; simp) hcv
  have := syll_some h1 (a := a) (by simp) ha
  have := syll_some h2 (a := d) (by simp) hd
  omega

/-- Three vowels with a glide in the middle are not one syllable. -/
theorem syll_three {b : Spec.Before} {w : Str} {n : Nat} (h : Syllables b w n) : ∀ {x y : Str} {a g d : Char}, w = x ++ a :: g :: d :: y →
    Vowel a → g = 'i' ∨ g = 'u' → Vowel d → 2 ≤ n := by
  have key : ∀ {s w x y : Str} {a g d : Char} {n : Nat}, (∀ c ∈ s, Vowel c) →
      (∀ x y, s = x ++ a :: g :: d :: y → False) → Syllables .vowel w n →
      (∀ {x y : Str} {a g d : Char}, w = x ++ a :: g :: d :: y → Vowel a → g = 'i' ∨ g = 'u' → Vowel d → 2 ≤ n) →
      s ++ w = x ++ a :: g :: d :: y → Vowel a → g = 'i' ∨ g = 'u' → Vowel d → 2 ≤ n + 1 := by
    intro s w x y a g d n hs h3 hw ih e ha hg hd
    rcases List.append_eq_append_iff.1 e with ⟨z, hz, hz2⟩ | ⟨z, hz, hz2⟩
    · have := ih hz2 ha hg hd; omega
    · match z, hz, hz2 with
      | [], hz, hz2 => have := ih (x := []) hz2.symm ha hg hd; omega
      | [_], hz, hz2 =>
        simp at hz2
        have := syll_some hw (a := d) (by rw [← hz2.2]; simp) hd
        omega
      | [_, _], hz, hz2 =>
        simp at hz2
        have := syll_some hw (a := d) (by rw [← hz2.2.2]; simp) hd
        omega
      | p :: q :: r :: z, hz, hz2 =>
        simp at hz2
        obtain ⟨rfl, rfl, rfl, -⟩ := hz2
        exact absurd hz (h3 x z)
  induction h with
  | nil => intro x y a g d e; simp at e
  | @letter b c w n hc hw ih =>
    intro x y a g d e ha hg hd
    cases x with
    | nil => cases e; exact absurd ha (letter_not_vowel hc)
    | cons p x =>
      simp only [List.cons_append, List.cons.injEq] at e
      exact ih e.2 ha hg hd
  | @nucleus b s w n hb hs hw ih =>
    intro x y a g d e ha hg hd
    refine key (nucleus_vowels hs) (fun x y e => ?_) hw ih e ha hg hd
    have := congrArg List.length e
    rcases nucleus_shape hs with ⟨v, rfl, -⟩ | ⟨v, g, rfl, -⟩ <;> simp at this <;> omega
  | @glided b s w n hb hs hw ih =>
    intro x y a g d e ha hg hd
    refine key (glided_vowels hs) (fun x y e => ?_) hw ih e ha hg hd
    obtain ⟨g', s, hg', hs, rfl⟩ := hs
    rcases nucleus_shape hs with ⟨v, rfl, -⟩ | ⟨v, g2, rfl, -, hv, -⟩
    · have := congrArg List.length e
      simp at this; omega
    · cases x with
      | nil => simp at e; rw [e.2.1] at hv; exact hv hg
      | cons p x =>
        have := congrArg List.length e
        simp at this; omega

/-! ## Brivla have two syllables -/

theorem rafsi_vowel {mz : Bool} {x : Str} (h : Rafsi mz x) : ∃ c p a q, x = c :: p ++ a :: q ∧ Consonant c ∧ Vowel a := by
  have hi := fun {a b} (h : InitialPair a b) => (initial_consonants h).1
  cases h with
  | cvv h1 h2 h3 => exact ⟨_, [], _, _, rfl, h1, h2⟩
  | cvhv h1 h2 h3 => exact ⟨_, [], _, _, rfl, h1, h2⟩
  | cvc h1 h2 h3 => exact ⟨_, [], _, _, rfl, h1, h2⟩
  | @ccv a b c h1 h2 => exact ⟨a, [b], c, [], rfl, hi h1, h2⟩
  | cvcc h1 h2 h3 => exact ⟨_, [], _, _, rfl, h1, h2⟩
  | @ccvc a b c d h1 h2 h3 => exact ⟨a, [b], c, [d], rfl, hi h1, h2⟩
  | gismu h =>
    cases h with
    | cvccv h1 h2 h3 => exact ⟨_, [], _, _, rfl, h1, h2⟩
    | @ccvcv a b c d e h1 h2 h3 h4 => exact ⟨a, [b], c, [d, e], rfl, hi h1, h2⟩

theorem gismu_two {mz : Bool} {x : Str} (h : Gismu mz x) : ConsonantInitial x ∧ ∀ {b n}, Syllables b x n → 2 ≤ n := by
  cases h with
  | @cvccv a b c d e h1 h2 h3 h4 =>
    exact ⟨h1, fun hs => syll_two hs (x := [a]) (a := b) (y := [c, d]) (d := e) (z := []) (c := c) rfl h2 h4 (by simp)
      (consonant_not_vowel h3.1)⟩
  | @ccvcv a b c d e h1 h2 h3 h4 =>
    exact ⟨(initial_consonants h1).1, fun hs => syll_two hs (x := [a, b]) (a := c) (y := [d]) (d := e) (z := []) (c := d) rfl h2 h4 (by simp)
      (consonant_not_vowel h3)⟩

theorem lujvo_two {s : Settings} {ps : List Str} (h : LujvoPieces s ps) :
    ConsonantInitial ps.flatten ∧ ∀ {b n}, Syllables b ps.flatten n → 2 ≤ n := by
  obtain ⟨x, k, x', k', t, rfl, hm, -⟩ := reading_two h.reading h.two
  rw [flat_spell]
  obtain ⟨c, p, a, q, e, hc, ha⟩ := rafsi_vowel (hm (x, k) (by simp)).1
  obtain ⟨c', p', a', q', e', hc', ha'⟩ := rafsi_vowel (hm (x', k') (by simp)).1
  simp only at e e'
  subst e e'
  constructor
  · exact hc
  · intro b n hs
    refine syll_two hs (x := c :: p) (a := a) (y := q ++ k ++ c' :: p') (d := a') (z := q' ++ k' ++ spell t) (c := c') ?_ ha ha' (by simp)
      (consonant_not_vowel hc')
    simp [spell]

/-! ## Tails behind a vowel -/

/-- No brivla is left when something ending in a vowel, without two adjacent consonants, is cut off. -/
def NoBrivlaLeft (y : YHyphens) (v : Str) : Prop :=
  ∀ u t, v = u ++ t → (∃ a, u.getLast? = some a ∧ Vowel a) → ConsonantInitial t ∨ Onglide t →
    (∀ a b, Adjacent u a b → ¬ (Consonant a ∧ Consonant b)) → isBrivla .linked { yHyphens := y } t = .ok false

theorem onglide_vowel {t : Str} (h : Onglide t) : ∃ g d r, t = g :: d :: r ∧ (g = 'i' ∨ g = 'u') ∧ Vowel d := by
  match t, h with
  | g :: d :: r, h => exact ⟨g, d, r, rfl, h.1, h.2⟩

theorem onglide_not_consonant {t : Str} (h : Onglide t) : ¬ ConsonantInitial t := by
  obtain ⟨g, d, r, rfl, hg, -⟩ := onglide_vowel h
  exact vowel_not_consonant (glide_vowel hg)

/-- A word without y, in normal spelling: brivla are gismu, lujvo and zi'evla. -/
theorem brivla_cases {s : Settings} {t : Str} (hlen : t.length < 10 ^ 95) (hy : 'y' ∉ t) (hne : t ≠ [])
    (hl : ∀ d ∈ t, Vowel d ∨ Consonant d ∨ d = '\'') (h : isBrivla .linked s t ≠ .ok false) :
    Gismu s.allowMz t ∨ (∃ ps, LujvoPieces s ps ∧ ps.flatten = t) ∨
      (analyseBrivla .linked s t = .ok (.zihevla, [t]) ∧ ZihevlaForm s.allowMz t) := by
  have hst : ∀ d ∈ t, readChar d = [d] := fun d hd => (readChar_letter (hl d hd)).1
  have hr : reading t = t := by
    unfold reading
    split
    · rename_i cs
      rcases hl '.' (by simp) with h | h | h <;> exact absurd h (by decide)
    · exact flatMap_readChar_stable hst
  have hc := clean_normal _ s t (Nat.le_refl _) hne hy hst
  unfold isBrivla at h
  cases ha : analyseBrivla .linked s t with
  | error e =>
    have := hc e ha
    simp at this
    subst this
    rw [ha] at h
    exact absurd rfl h
  | ok r =>
    obtain ⟨ty, ps⟩ := r
    rw [ha] at h
    have hb := ha
    rw [analyseBrivla_program] at hb
    obtain ⟨n, hn, hacc⟩ := analyseR_ok hb
    have hn := (normalise_ok hn).2
    rw [hr] at hn
    rw [hn] at hacc
    cases hacc with
    | gismu _ _ hg => exact .inl (isGismu_iff.1 hg)
    | @kaha l ps hl' _ _ _ hk =>
      by_cases hlc : isConsonant l = true
      · simp [hlc] at h
      · refine .inr (.inl ?_)
        have hv : Vowel l := by
          obtain ⟨c', _, _, hc', -⟩ := jvokaha_canon hk
          rw [hl'] at hc'
          rcases hl l (List.mem_of_getLast? hl') with h | h | h
          · exact h
          · exact absurd ((isConsonant_iff l).2 h) hlc
          · subst h
            rename_i hor
            revert hor; decide
        exact (jvokaha_lujvo ⟨l, hl', hv⟩ (Nat.lt_of_lt_of_le hlen (Nat.pow_le_pow_right (by decide) (by decide)))).1 ⟨ps, hk⟩
    | zihevla => exact .inr (.inr ⟨rfl, by have := (zihevla_iff (by rw [hr]; exact hlen)).1 ha; rw [hr] at this; exact this.2.1⟩)
    | parts _ _ _ _ _ _ _ _ hs => exact absurd (by rw [splitOn_of_not_mem hy]; rfl) hs

theorem adjacent_take {u t : Str} (hl : ∃ a, u.getLast? = some a ∧ ¬ Consonant a) :
    (∀ a b, Adjacent (u ++ t.take 1) a b → ¬ (Consonant a ∧ Consonant b)) ↔ ∀ a b, Adjacent u a b → ¬ (Consonant a ∧ Consonant b) := by
  obtain ⟨x, hx, hxc⟩ := hl
  constructor
  · rintro h a b ⟨p, q, e⟩
    exact h a b ⟨p, q ++ t.take 1, by rw [e]; simp⟩
  · intro h
    refine adjAll_append.2 ⟨h, ?_, fun a b ha _ hab => ?_⟩
    · match t with
      | [] => rintro a b ⟨p, q, e⟩; simp at e
      | c :: t => exact adjAll_single
    · rw [hx] at ha
      cases ha
      exact hxc hab.1

/-- In a word of two syllables no brivla is left. -/
theorem left_three {mz : Bool} {y : YHyphens} {v u t : Str} {n : Nat} (hF : ZihevlaForm mz v) (hlen : v.length < 10 ^ 95)
    (hs : Syllables .nothing v n) (e : v = u ++ t) (hu : ∃ a, u.getLast? = some a ∧ Vowel a) (ht : ConsonantInitial t ∨ Onglide t)
    (hb : isBrivla .linked { yHyphens := y } t ≠ .ok false) : 3 ≤ n := by
  have hne : t ≠ [] := by rintro rfl; rcases ht with h | h <;> cases h
  have hsub : ∀ d ∈ t, d ∈ v := fun d hd => by rw [e]; simp [hd]
  have hcases := brivla_cases (s := { yHyphens := y }) (t := t) (by rw [e] at hlen; simp at hlen; omega) (fun h => sounds_no_y hF.sounds (hsub _ h)) hne
    (fun d hd => hF.sounds.letters d (hsub d hd)) hb
  obtain ⟨a, ha, hav⟩ := hu
  have hmem := List.mem_of_getLast? ha
  rcases ht with ht | ht
  · obtain ⟨c, r, rfl⟩ := List.exists_cons_of_ne_nil hne
    have hc : Consonant c := ht
    obtain ⟨n1, n2, h1, h2, h3, -⟩ := syll_split hs e (consonant_not_vowel hc)
    have h1 := syll_some h1 hmem hav
    have ht2 : Syllables .nothing (c :: r) n2 := .letter (.inl hc) h2
    have : 2 ≤ n2 := by
      rcases hcases with hg | ⟨ps, hl, e2⟩ | ⟨-, hz⟩
      · exact (gismu_two hg).2 ht2
      · rw [← e2] at ht2
        exact (lujvo_two hl).2 ht2
      · obtain ⟨m, hm, h5⟩ := hz.syllables
        rw [syllables_unique ht2 hm]
        exact h5
    omega
  · have hnc := onglide_not_consonant ht
    rcases hcases with hg | ⟨ps, hl, e2⟩ | ⟨-, hz⟩
    · exact absurd (gismu_two hg).1 hnc
    · exact absurd (e2 ▸ (lujvo_two hl).1) hnc
    · obtain ⟨u', ch, t', hr, hl, -⟩ := hz.cluster
      obtain ⟨g, d, r, rfl, hg, hd⟩ := onglide_vowel ht
      obtain ⟨l, hl1, hl2⟩ := hz.vowel
      obtain ⟨c, ch, rfl⟩ := List.exists_cons_of_ne_nil hr.some
      have hc := hr.all c (by simp)
      have he := hr.eq
      match u', he with
      | [], he => simp at he; rw [← he.1] at hc; exact absurd hc (vowel_not_consonant (glide_vowel hg))
      | [_], he => simp at he; rw [← he.2.1] at hc; exact absurd hc (vowel_not_consonant hd)
      | p :: q :: u', he =>
        simp only [List.cons_append, List.cons.injEq, List.append_assoc] at he
        obtain ⟨rfl, rfl, rfl⟩ := he
        obtain ⟨n1, n2, h1, h2, h3, -⟩ := syll_split hs (x := u ++ g :: d :: u') (c := c) (y := ch ++ t') (by rw [e]; simp) (consonant_not_vowel hc)
        have h5 : l ∈ ch ++ t' := by
          have : (g :: d :: (u' ++ c :: (ch ++ t'))).getLast? = (c :: (ch ++ t')).getLast? := by
            rw [show g :: d :: (u' ++ c :: (ch ++ t')) = (g :: d :: u') ++ c :: (ch ++ t') by simp, getLast?_append_ne _ (by simp)]
          have h6 := hl1
          rw [this] at h6
          rcases List.mem_cons.1 (List.mem_of_getLast? h6) with h | h
          · subst h; exact absurd hc (vowel_not_consonant hl2)
          · exact h
        have := syll_some h2 h5 hl2
        have : 2 ≤ n1 := by
          obtain ⟨u0, rfl⟩ : ∃ u0, u = u0 ++ [a] := by
            rcases List.eq_nil_or_concat u with rfl | ⟨u0, b, rfl⟩
            · cases ha
            · simp at ha; subst ha; exact ⟨u0, by simp⟩
          exact syll_three h1 (x := u0) (a := a) (g := g) (d := d) (y := u') (by simp) hav hg hd
        omega

theorem vowelRun_head {s : Str} {l : List Str} (h : VowelRun (s :: l)) : Nucleus s ∨ Glided s := by
  generalize e : s :: l = r at h
  induction h generalizing l with
  | one h => cases e; exact h
  | @more l' s' _ hg _ ih =>
    cases l' with
    | nil => cases e; exact .inr hg
    | cons a l' => cases e; exact ih rfl

theorem vowelRun_tail {s : Str} {l : List Str} (h : VowelRun (s :: l)) (hne : l ≠ []) : VowelRun l ∧ ∀ x, l.head? = some x → Glided x := by
  generalize e : s :: l = r at h
  induction h generalizing l with
  | one h => cases e; exact absurd rfl hne
  | @more l' s' h1 hg hc ih =>
    cases l' with
    | nil => cases e; exact absurd rfl hne
    | cons a l' =>
      cases e
      by_cases hn : l' = []
      · subst hn
        exact ⟨.one (.inr hg), by intro x hx; cases hx; exact hg⟩
      · obtain ⟨h2, h3⟩ := ih hn rfl
        refine ⟨.more h2 hg fun h => hc ?_, ?_⟩
        · rcases h with ⟨h, d, hd, u, e⟩ | ⟨h, u, e⟩
          · exact .inl ⟨h, d, hd, s ++ u, by simp [e]⟩
          · exact .inr ⟨h, s ++ u, by simp [e]⟩
        · intro x hx
          refine h3 x ?_
          cases l' with
          | nil => exact absurd rfl hn
          | cons b l' => simpa using hx

/-- A vowel at the beginning of a word, as a syllable of its own, can be left out. -/
theorem sounds_drop {mz : Bool} {g d : Char} {r : Str} (h : Sounds mz (g :: d :: r)) (hd : Vowel d)
    (hrun : ∀ x t, Run Vowel (d :: r) [] x t → ∃ syls, syls.flatten = x ∧ VowelRun syls) : Sounds mz (d :: r) := by
  have hrun' : ∀ {P : Char → Prop} {u x t}, Run P (d :: r) u x t → u ≠ [] → Run P (g :: d :: r) (g :: u) x t := by
    intro P u x t hr hu
    refine ⟨by rw [hr.eq]; rfl, hr.some, hr.all, ?_, hr.after⟩
    intro c hc
    obtain ⟨a, u, rfl⟩ := List.exists_cons_of_ne_nil hu
    exact hr.before c (by simpa using hc)
  refine ⟨fun c hc => h.letters c (by simp [List.mem_cons.1 hc]), ?_, ?_, ?_, ?_, ?_, ?_⟩
  · intro u t e
    obtain ⟨⟨a, h1, h2⟩, h3⟩ := h.apostrophe (g :: u) t (by rw [e]; rfl)
    refine ⟨?_, h3⟩
    cases u with
    | nil => cases e; revert hd; decide
    | cons b u => exact ⟨a, by simpa using h1, h2⟩
  · rintro a b ⟨p, q, e⟩
    exact h.pairs a b ⟨g :: p, q, by rw [e]; rfl⟩
  · rintro t ht ⟨p, q, e⟩
    exact h.triples t ht ⟨g :: p, q, by rw [e]; rfl⟩
  · intro ch t hr
    exfalso
    obtain ⟨c, ch, rfl⟩ := List.exists_cons_of_ne_nil hr.some
    have := hr.eq
    simp at this
    have h2 := hr.all c (by simp)
    rw [← this.1] at h2
    exact vowel_not_consonant hd h2
  · intro u ch t hr hu
    exact h.middle (g :: u) ch t (hrun' hr hu) (by simp)
  · intro u x t hr
    by_cases hu : u = []
    · subst hu
      obtain ⟨syls, h1, h2⟩ := hrun x t hr
      exact ⟨syls, h1, h2, by simp⟩
    · obtain ⟨syls, h1, h2, h3⟩ := h.vowels (g :: u) x t (hrun' hr hu)
      exact ⟨syls, h1, h2, fun _ => h3 (by simp)⟩

/-- A glide after a consonant or apostrophe is a vowel; what begins with it is no brivla unless what follows it is one. -/
theorem left_letter {mz : Bool} {y : YHyphens} {v u t : Str} {n : Nat} (hF : ZihevlaForm mz v) (hlen : v.length < 10 ^ 95)
    (hs : Syllables .nothing v n) (e : v = u ++ t) (hu : ∃ a, u.getLast? = some a ∧ ¬ Vowel a) (ht : Onglide t)
    (hadj : ∀ a b, Adjacent (u ++ t.take 1) a b → ¬ (Consonant a ∧ Consonant b)) (hN : NoBrivlaLeft y v) :
    isBrivla .linked { yHyphens := y } t = .ok false := by
  apply Classical.byContradiction
  intro hb
  have hsub : ∀ c ∈ t, c ∈ v := fun d hd => by rw [e]; simp [hd]
  have hlt : t.length < 10 ^ 95 := by rw [e] at hlen; simp at hlen; omega
  have hlet : ∀ d ∈ t, Vowel d ∨ Consonant d ∨ d = '\'' := fun d hd => hF.sounds.letters d (hsub d hd)
  have hne : t ≠ [] := by rintro rfl; cases ht
  have hcases := brivla_cases (s := { yHyphens := y }) (t := t) hlt (fun h => sounds_no_y hF.sounds (hsub _ h)) hne hlet hb
  have hnc := onglide_not_consonant ht
  rcases hcases with hg | ⟨ps, hl, e2⟩ | ⟨hz, hzf⟩
  · exact absurd (gismu_two hg).1 hnc
  · exact absurd (e2 ▸ (lujvo_two hl).1) hnc
  obtain ⟨g, d, r, rfl, hg, hd⟩ := onglide_vowel ht
  have hgv := glide_vowel hg
  obtain ⟨a, ha, hav⟩ := hu
  obtain ⟨u0, rfl⟩ : ∃ u0, u = u0 ++ [a] := by
    rcases List.eq_nil_or_concat u with rfl | ⟨u0, b, rfl⟩
    · cases ha
    · simp at ha; subst ha; exact ⟨u0, by simp⟩
  -- the vowels at the beginning of `t`
  have hrun : Run Vowel v (u0 ++ [a]) (g :: (d :: r).takeWhile isVowel) ((d :: r).dropWhile isVowel) := by
    refine ⟨by rw [e, List.append_assoc (u0 ++ [a]), List.cons_append, List.takeWhile_append_dropWhile], by simp, ?_, ?_, ?_⟩
    · intro c hc
      rcases List.mem_cons.1 hc with rfl | hc
      · exact hgv
      · exact (isVowel_iff c).1 (takeWhile_all c hc)
    · intro c hc; simp at hc; subst hc; exact hav
    · intro c hc h
      have := dropWhile_head hc
      rw [(isVowel_iff c).2 h] at this
      cases this
  obtain ⟨syls, hfl, hvr, hhead⟩ := hF.sounds.vowels _ _ _ hrun
  have htk : (d :: r).takeWhile isVowel = d :: r.takeWhile isVowel := by
    rw [List.takeWhile_cons, if_pos ((isVowel_iff d).2 hd)]
  obtain ⟨l, rfl, hl⟩ : ∃ l, syls = [g] :: l ∧ l ≠ [] := by
    cases syls with
    | nil => simp at hfl
    | cons s l =>
      have hnu : Nucleus s := (vowelRun_head hvr).resolve_right (hhead (by simp) s rfl)
      rw [htk] at hfl
      rcases nucleus_shape hnu with ⟨v, rfl, -⟩ | ⟨v, g', rfl, -, hv, -⟩
      · simp at hfl
        obtain ⟨rfl, hfl⟩ := hfl
        exact ⟨l, rfl, by rintro rfl; simp at hfl⟩
      · simp at hfl
        rw [hfl.1] at hv
        exact absurd hg hv
  obtain ⟨hvr', hgl⟩ := vowelRun_tail hvr hl
  have hfl' : l.flatten = (d :: r).takeWhile isVowel := by simpa using hfl
  have hS : Sounds false (d :: r) := by
    refine sounds_drop hzf.sounds hd fun x t hr => ⟨l, ?_, hvr'⟩
    rw [hfl', hr.eq]
    simp only [List.nil_append]
    rw [List.takeWhile_append_of_pos fun c hc => (isVowel_iff c).2 (hr.all c hc)]
    cases t with
    | nil => simp
    | cons c t =>
      rw [List.takeWhile_cons, if_neg]
      · simp
      · intro h
        exact hr.after c rfl ((isVowel_iff c).1 h)
  have hon : Onglide (d :: r) := by
    cases l with
    | nil => exact absurd rfl hl
    | cons s l =>
      obtain ⟨g', s, hg', hs', rfl⟩ := hgl s rfl
      obtain ⟨c, s, rfl⟩ := List.exists_cons_of_ne_nil (nucleus_ne hs')
      have hcv := nucleus_vowels hs' c (by simp)
      rw [htk] at hfl'
      simp at hfl'
      obtain ⟨rfl, hfl'⟩ := hfl'
      cases r with
      | nil => simp at hfl'
      | cons c' r =>
        rw [List.takeWhile_cons] at hfl'
        split at hfl'
        · simp at hfl'
          obtain ⟨rfl, -⟩ := hfl'
          exact ⟨hg', hcv⟩
        · simp at hfl'
  -- the number of its syllables
  obtain ⟨n1, k, -, hk, -, hal⟩ := syll_split hs (x := u0) (c := a) (y := g :: d :: r) (by rw [e]; simp) hav
  obtain ⟨m, hm, hmn⟩ : ∃ m, Syllables .vowel (d :: r) m ∧ k = m + 1 := by
    generalize e2 : g :: d :: r = w at hk
    cases hk with
    | nil => cases e2
    | letter h => cases e2; exact absurd hgv (letter_not_vowel h)
    | glided h => exact absurd rfl h
    | nucleus _ h1 h2 =>
      rcases nucleus_shape h1 with ⟨v, rfl, -⟩ | ⟨v, g', rfl, -, hv, -⟩
      · simp at e2
        obtain ⟨rfl, rfl⟩ := e2
        exact ⟨_, h2, rfl⟩
      · simp at e2
        rw [← e2.1] at hv
        exact absurd hg hv
  have hm0 : Syllables .nothing (d :: r) m := by
    generalize e2 : d :: r = w at hm
    cases hm with
    | nil => cases e2
    | letter h => cases e2; exact absurd hd (letter_not_vowel h)
    | nucleus h => exact absurd rfl h
    | glided _ h1 h2 => exact .glided (by simp) h1 h2
  obtain ⟨u', ch, t', hr, hcl, hfew⟩ := hzf.cluster
  obtain ⟨z, hz1, hz2⟩ := hzf.vowel
  obtain ⟨u', rfl⟩ : ∃ u2, u' = g :: d :: u2 := by
    have h1 := hr.eq
    obtain ⟨c, ch, rfl⟩ := List.exists_cons_of_ne_nil hr.some
    have hc := hr.all c (by simp)
    match u', h1 with
    | [], h1 => simp at h1; rw [← h1.1] at hc; exact absurd hc (vowel_not_consonant hgv)
    | [_], h1 => simp at h1; rw [← h1.2.1] at hc; exact absurd hc (vowel_not_consonant hd)
    | p :: q :: u2, h1 => simp at h1; exact ⟨u2, by rw [← h1.1, ← h1.2.1]⟩
  have hcr : Run Consonant (d :: r) (d :: u') ch t' := by
    refine ⟨?_, hr.some, hr.all, ?_, hr.after⟩
    · have := hr.eq
      simpa using this
    · intro c hc
      exact hr.before c (by simpa using hc)
  have hlast : ∃ c, (d :: r).getLast? = some c ∧ Vowel c := ⟨z, by simpa using hz1, hz2⟩
  have hm2 : 2 ≤ m := by
    obtain ⟨c, ch, rfl⟩ := List.exists_cons_of_ne_nil hr.some
    have hc := hr.all c (by simp)
    obtain ⟨t2, ht2⟩ : ∃ t2, t' = t2 ++ [z] := by
      rcases List.eq_nil_or_concat t' with rfl | ⟨t2, b, rfl⟩
      · obtain ⟨z', h1, h2⟩ := hlast
        have h3 := hcr.eq
        rw [List.append_nil] at h3
        rw [h3, getLast?_append_ne _ (by simp)] at h1
        exact absurd (hr.all z' (List.mem_of_getLast? h1)) (vowel_not_consonant h2)
      · refine ⟨t2, ?_⟩
        have h3 := hr.eq
        rw [h3, getLast?_append_ne _ (by simp)] at hz1
        simp at hz1
        rw [hz1]
        simp
    refine syll_two hm0 (x := []) (a := d) (y := u' ++ c :: ch ++ t2) (d := z) (z := []) (c := c) ?_ hd hz2 (by simp) (consonant_not_vowel hc)
    rw [hcr.eq, ht2]; simp
  have hform : ZihevlaForm false (d :: r) := by
    refine ⟨hS, hlast, ⟨d :: u', ch, t', hcr, hcl, ?_⟩, m, hm0, hm2⟩
    have : ¬ Consonant g := vowel_not_consonant hgv
    simpa [List.filter_cons, this] using hfew
  have hst : ∀ c ∈ g :: d :: r, readChar c = [c] ∧ c ≠ '.' := fun c hc => readChar_letter (hlet c hc)
  have hread : ∀ w : Str, (∀ c ∈ w, readChar c = [c] ∧ c ≠ '.') → reading w = w := by
    intro w hw
    unfold reading
    split
    · exact absurd rfl (hw '.' (by simp)).2
    · exact flatMap_readChar_stable fun c hc => (hw c hc).1
  have hr1 : reading (g :: d :: r) = g :: d :: r := hread _ hst
  have hr2 : reading (d :: r) = d :: r := hread _ fun c hc => hst c (by simp [List.mem_cons.1 hc])
  have hnci : ¬ ConsonantInitial (d :: r) := vowel_not_consonant hd
  obtain ⟨-, -, -, -, htl, -⟩ := (zihevla_iff (by rw [hr1]; exact hlt)).1 hz
  rw [hr1] at htl
  have htl := htl k (by rw [hmn]; exact .nucleus (s := [g]) (by simp) (by rcases hg with rfl | rfl <;> decide) hm) (by omega)
  have hzih : analyseBrivla .linked { yHyphens := y } (d :: r) = .ok (.zihevla, [d :: r]) := by
    refine (zihevla_iff (by rw [hr2]; simp at hlt ⊢; omega)).2 ?_
    rw [hr2]
    refine ⟨rfl, hform, fun h => hnci (gismu_two h).1, fun qs hq e => hnci (e ▸ (lujvo_two hq).1), fun _ _ _ => ?_, fun h => absurd h hnci⟩
    rintro s ⟨x, h1, h2, h3, h4⟩
    refine htl s ⟨g :: x, by rw [h1]; rfl, by simp, h3, ?_⟩
    refine adjAll_append (u := [g]) (v := x ++ s.take 1) |>.2 ⟨adjAll_single, h4, fun p q hp _ hpq => ?_⟩
    simp at hp
    subst hp
    exact vowel_not_consonant hgv hpq.1
  have := hN (u0 ++ [a] ++ [g]) (d :: r) (by rw [e]; simp) ⟨g, by simp, hgv⟩ (.inr hon) (by simpa using hadj)
  unfold isBrivla at this
  rw [hzih] at this
  cases this

/-- The tests of `check_zihevla_or_rafsi` amount to this: no brivla is left when something that ends in a vowel is cut off. -/
theorem tails_iff {mz : Bool} {y : YHyphens} {v : Str} (hF : ZihevlaForm mz v) (hlen : v.length < 10 ^ 95) :
    (∀ n, Syllables .nothing v n → 2 < n → NoBrivlaTail y v) ↔ NoBrivlaLeft y v := by
  obtain ⟨n, hs, hn⟩ := hF.syllables
  constructor
  · intro h u t e hu ht ha
    apply Classical.byContradiction
    intro hb
    have h3 := left_three hF hlen hs e hu ht hb
    obtain ⟨a, hla, hav⟩ := hu
    exact hb (h n hs (by omega) t ⟨u, e, (fun h => by rw [h] at hla; cases hla), ht, (adjacent_take ⟨a, hla, vowel_not_consonant hav⟩).2 ha⟩)
  · intro h m _ _ t ⟨u, e, hu, ht, ha⟩
    have hla := List.getLast?_eq_some_getLast hu
    by_cases hv : Vowel (u.getLast hu)
    · exact h u t e ⟨_, hla, hv⟩ ht ((adjacent_take ⟨_, hla, vowel_not_consonant hv⟩).1 ha)
    · rcases ht with ht | ht
      · exfalso
        obtain ⟨c, r, rfl⟩ : ∃ c r, t = c :: r := by
          cases t with
          | nil => cases ht
          | cons c r => exact ⟨c, r, rfl⟩
        have hdec := List.dropLast_concat_getLast hu
        have hdec2 : ∀ x : Str, u ++ x = u.dropLast ++ u.getLast hu :: x := fun x => by
          rw [show u.dropLast ++ u.getLast hu :: x = (u.dropLast ++ [u.getLast hu]) ++ x by simp, hdec]
        rcases hF.sounds.letters (u.getLast hu) (by rw [e]; simp) with h1 | h1 | h1
        · exact hv h1
        · exact ha _ c ⟨u.dropLast, [], hdec2 [c]⟩ ⟨h1, ht⟩
        · obtain ⟨-, b, hb, hbv⟩ := hF.sounds.apostrophe u.dropLast (c :: r) (by rw [e, ← h1]; exact hdec2 _)
          cases hb
          exact vowel_not_consonant hbv ht
      · exact left_letter hF hlen hs e ⟨_, hla, hv⟩ ht ha h

end Jvotci
