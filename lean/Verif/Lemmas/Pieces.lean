import Verif.Lemmas.Wf

/-!
# Helper lemmas: words read as a sequence of CLL rafsi and hyphens
-/

namespace Jvotci

open Spec

theorem vowel_not_consonant {c : Char} (h : Vowel c) : ¬ Consonant c :=
  isConsonant_false.1 (not_consonant_of_vowel ((isVowel_iff c).2 h))

theorem consonant_not_vowel {c : Char} (h : Consonant c) : ¬ Vowel c := fun hv => vowel_not_consonant hv h

theorem consonant_ne_y {c : Char} (h : Consonant c) : c ≠ 'y' ∧ c ≠ '\'' := by
  constructor <;> rintro rfl <;> revert h <;> decide

theorem vowel_ne_y' {c : Char} (h : Vowel c) : c ≠ 'y' ∧ c ≠ '\'' := by
  constructor <;> rintro rfl <;> revert h <;> decide

theorem not_banned {a b c : Char} (h : ¬ Consonant a ∨ ¬ Consonant b ∨ ¬ Consonant c) : [a, b, c] ∉ bannedTriples := by
  intro hm
  obtain ⟨p, q, r, e, h1, h2, h3⟩ := banned_consonants hm
  simp only [List.cons.injEq, and_true] at e
  obtain ⟨rfl, rfl, rfl⟩ := e
  rw [isConsonant_iff] at h1 h2 h3
  simp [h1, h2, h3] at h

theorem banned_first {t : Str} (h : t ∈ bannedTriples) : ∃ b c, t = ['n', b, c] ∧ (b = 'd' ∨ b = 't') := by
  simp only [bannedTriples, List.mem_cons, List.not_mem_nil, or_false] at h
  rcases h with rfl | rfl | rfl | rfl <;> simp

theorem WF.cons2 {mz : Bool} {a b : Char} {t : Str} (h : Letter a) (hp : PairOk mz a b)
    (ht : ∀ c t', t = c :: t' → [a, b, c] ∉ bannedTriples) (hw : WF mz (b :: t)) : WF mz (a :: b :: t) := by
  refine ⟨?_, adjAll_cons.2 ⟨hp, hw.pairs⟩, ?_⟩
  · intro c hc
    rcases List.mem_cons.1 hc with rfl | hc
    · exact h
    · exact hw.letters c hc
  · cases t with
    | nil => exact noTriple_short (by simp)
    | cons c t => exact noTriple_cons.2 ⟨ht c t rfl, hw.triples⟩

/-- A letter before a letter that is no consonant. -/
theorem WF.consNc {mz : Bool} {a b : Char} {t : Str} (h : Letter a) (hb : ¬ Consonant b) (hw : WF mz (b :: t)) :
    WF mz (a :: b :: t) :=
  WF.cons2 h (fun _ h2 => absurd h2 hb) (fun _ _ _ => not_banned (.inr (.inl hb))) hw

theorem letter_c {c : Char} (h : Consonant c) : Letter c := .inr (.inl h)
theorem letter_v {c : Char} (h : Vowel c) : Letter c := .inl h

theorem Cuts.wf {mz : Bool} {p rest : Str} (h : Cuts mz p rest) (hr : WF mz rest) : WF mz (p ++ rest) := by
  cases h with
  | cvv ha hb hc _ =>
    rw [isConsonant_iff] at ha; rw [isVowel_iff] at hb hc
    exact WF.consNc (letter_c ha) (vowel_not_consonant hb) (WF.cons (letter_v hb) (vowel_not_consonant hb)
      (WF.cons (letter_v hc) (vowel_not_consonant hc) hr))
  | cvhv ha hb hc =>
    rw [isConsonant_iff] at ha; rw [isVowel_iff] at hb hc
    exact WF.consNc (letter_c ha) (vowel_not_consonant hb) (WF.cons (letter_v hb) (vowel_not_consonant hb)
      (WF.cons (.inr (.inr (.inl rfl))) (by decide) (WF.cons (letter_v hc) (vowel_not_consonant hc) hr)))
  | cvcc ha hb hc he =>
    rw [isConsonant_iff] at ha; rw [isVowel_iff] at hb
    refine WF.consNc (letter_c ha) (vowel_not_consonant hb) (WF.cons (letter_v hb) (vowel_not_consonant hb) ?_)
    have hd := hc.2.1
    refine WF.cons2 (letter_c hc.1) (fun _ _ => hc) ?_ ?_
    · rintro x t' e
      rcases he with rfl | ⟨t, rfl⟩
      · cases e
      · cases e; exact not_banned (.inr (.inr (by decide)))
    · rcases he with rfl | ⟨t, rfl⟩
      · exact WF.single (letter_c hd)
      · exact WF.consNc (letter_c hd) (by decide) hr
  | ccvc hab hc hd he =>
    rw [isVowel_iff] at hc; rw [isConsonant_iff] at hd
    refine WF.cons2 (letter_c (initial_consonants hab).1) (fun _ _ => initial_valid hab) ?_ ?_
    · rintro x t' e; cases e; exact not_banned (.inr (.inr (vowel_not_consonant hc)))
    · refine WF.consNc (letter_c (initial_consonants hab).2) (vowel_not_consonant hc) (WF.cons (letter_v hc) (vowel_not_consonant hc) ?_)
      rcases he with rfl | ⟨t, rfl⟩
      · exact WF.single (letter_c hd)
      · exact WF.consNc (letter_c hd) (by decide) hr
  | gismu hg =>
    rw [List.append_nil]
    cases hg with
    | cvccv ha hb hc he =>
      refine WF.consNc (letter_c ha) (vowel_not_consonant hb) (WF.cons (letter_v hb) (vowel_not_consonant hb) ?_)
      refine WF.cons2 (letter_c hc.1) (fun _ _ => hc) ?_ (WF.consNc (letter_c hc.2.1) (vowel_not_consonant he) (WF.single (letter_v he)))
      rintro x t' e; cases e; exact not_banned (.inr (.inr (vowel_not_consonant he)))
    | ccvcv hab hc hd he =>
      refine WF.cons2 (letter_c (initial_consonants hab).1) (fun _ _ => initial_valid hab) ?_ ?_
      · rintro x t' e; cases e; exact not_banned (.inr (.inr (vowel_not_consonant hc)))
      · exact WF.consNc (letter_c (initial_consonants hab).2) (vowel_not_consonant hc) (WF.cons (letter_v hc) (vowel_not_consonant hc)
          (WF.consNc (letter_c hd) (vowel_not_consonant he) (WF.single (letter_v he))))
  | cvc ha hb hc h1 h2 =>
    rw [isConsonant_iff] at ha hc; rw [isVowel_iff] at hb
    refine WF.consNc (letter_c ha) (vowel_not_consonant hb) (WF.cons (letter_v hb) (vowel_not_consonant hb) ?_)
    cases rest with
    | nil => exact WF.single (letter_c hc)
    | cons d t =>
      refine WF.cons2 (letter_c hc) (fun _ hd => h1 d t rfl ((isConsonant_iff d).2 hd)) ?_ hr
      rintro x t' rfl
      exact h2 d x t' rfl
  | ccv hab hc =>
    rw [isVowel_iff] at hc
    refine WF.cons2 (letter_c (initial_consonants hab).1) (fun _ _ => initial_valid hab) ?_ ?_
    · rintro x t' e; cases e; exact not_banned (.inr (.inr (vowel_not_consonant hc)))
    · exact WF.consNc (letter_c (initial_consonants hab).2) (vowel_not_consonant hc) (WF.cons (letter_v hc) (vowel_not_consonant hc) hr)

theorem r_pair {mz : Bool} {c : Char} (h : Consonant c) (hr : c ≠ 'r') : PermissiblePair mz 'r' c := by
  simp only [Consonant, List.mem_cons, List.not_mem_nil, or_false] at h
  revert hr
  rcases h with rfl|rfl|rfl|rfl|rfl|rfl|rfl|rfl|rfl|rfl|rfl|rfl|rfl|rfl|rfl|rfl|rfl <;> cases mz <;> decide

theorem Chop.wf {y : YHyphens} {mz : Bool} {prev : Option Str} {ps : List Str} (h : Chop y mz prev ps) : WF mz (join ps) := by
  induction h with
  | nil => exact WF.nil
  | @y p ps _ _ ih => exact WF.cons (.inr (.inr (.inr rfl))) (by decide) ih
  | @n p ps t _ _ _ hj _ ih =>
    show WF mz ('n' :: join ps)
    rw [hj] at ih ⊢
    refine WF.cons2 (.inr (.inl (by decide))) (fun _ _ => by cases mz <;> decide) ?_ ih
    rintro c t' rfl hm
    obtain ⟨b, c', e, hb⟩ := banned_first hm
    simp at e
    rw [← e.1] at hb
    revert hb; decide
  | @r p ps c t _ _ _ hj hc hcr _ ih =>
    show WF mz ('r' :: join ps)
    rw [isConsonant_iff] at hc
    rw [hj] at ih ⊢
    refine WF.cons2 (.inr (.inl (by decide))) (fun _ _ => r_pair hc hcr) ?_ ih
    rintro c t' rfl hm
    obtain ⟨b, c', e, hb⟩ := banned_first hm
    simp at e
  | @hy p ps _ _ _ ih =>
    exact WF.cons (.inr (.inr (.inl rfl))) (by decide) (WF.cons (.inr (.inr (.inr rfl))) (by decide) ih)
  | @rafsi prev p ps hc _ ih => exact hc.wf ih

/-! ## The strings made by the search from CLL rafsi -/

/-- Two adjacent letters of a string made by the search. -/
def MadeOk (a b : Char) : Prop := AposOk a b ∧ (a = 'y' → Consonant b)

theorem madeOk_letters {a b : Char} (ha : Vowel a ∨ Consonant a) (hb : Vowel b ∨ Consonant b) : MadeOk a b := by
  refine ⟨⟨?_, ?_⟩, ?_⟩
  · rintro rfl; exact absurd hb (by decide)
  · rintro rfl; exact absurd ha (by decide)
  · rintro rfl; exact absurd ha (by decide)

theorem madeOk_vh {a : Char} (ha : Vowel a) : MadeOk a '\'' :=
  ⟨⟨fun _ => .inl ha, fun e => by subst e; exact absurd ha (by decide)⟩, fun e => by subst e; exact absurd ha (by decide)⟩

theorem madeOk_hv {a : Char} (ha : Vowel a) : MadeOk '\'' a :=
  ⟨⟨fun e => by subst e; exact absurd ha (by decide), fun _ => .inl ha⟩, fun e => absurd e (by decide)⟩

theorem madeOk_hy : MadeOk '\'' 'y' := ⟨⟨fun e => absurd e (by decide), fun _ => .inr rfl⟩, fun e => absurd e (by decide)⟩

theorem madeOk_xy {a : Char} (ha : Vowel a ∨ Consonant a) : MadeOk a 'y' :=
  ⟨⟨fun e => absurd e (by decide), fun _ => .inr rfl⟩, fun e => by subst e; exact absurd ha (by decide)⟩

theorem madeOk_yc {c : Char} (hc : Consonant c) : MadeOk 'y' c :=
  ⟨⟨fun _ => .inr rfl, fun e => absurd e (by decide)⟩, fun _ => hc⟩

theorem rafsi_made {mz : Bool} {p : Str} (h : Rafsi mz p) : AdjAll MadeOk p := by
  cases h with
  | cvv ha hb hc =>
    exact adjAll_cons.2 ⟨madeOk_letters (.inr ha) (.inl hb), adjAll_cons.2 ⟨madeOk_letters (.inl hb) (.inl hc), adjAll_single⟩⟩
  | cvhv ha hb hc =>
    exact adjAll_cons.2 ⟨madeOk_letters (.inr ha) (.inl hb), adjAll_cons.2 ⟨madeOk_vh hb, adjAll_cons.2 ⟨madeOk_hv hc, adjAll_single⟩⟩⟩
  | cvc ha hb hc =>
    exact adjAll_cons.2 ⟨madeOk_letters (.inr ha) (.inl hb), adjAll_cons.2 ⟨madeOk_letters (.inl hb) (.inr hc), adjAll_single⟩⟩
  | ccv hab hc =>
    exact adjAll_cons.2 ⟨madeOk_letters (.inr (initial_consonants hab).1) (.inr (initial_consonants hab).2),
      adjAll_cons.2 ⟨madeOk_letters (.inr (initial_consonants hab).2) (.inl hc), adjAll_single⟩⟩
  | cvcc ha hb hc =>
    exact adjAll_cons.2 ⟨madeOk_letters (.inr ha) (.inl hb), adjAll_cons.2 ⟨madeOk_letters (.inl hb) (.inr hc.1),
      adjAll_cons.2 ⟨madeOk_letters (.inr hc.1) (.inr hc.2.1), adjAll_single⟩⟩⟩
  | ccvc hab hc hd =>
    exact adjAll_cons.2 ⟨madeOk_letters (.inr (initial_consonants hab).1) (.inr (initial_consonants hab).2),
      adjAll_cons.2 ⟨madeOk_letters (.inr (initial_consonants hab).2) (.inl hc),
      adjAll_cons.2 ⟨madeOk_letters (.inl hc) (.inr hd), adjAll_single⟩⟩⟩
  | gismu hg =>
    cases hg with
    | cvccv ha hb hc he =>
      exact adjAll_cons.2 ⟨madeOk_letters (.inr ha) (.inl hb), adjAll_cons.2 ⟨madeOk_letters (.inl hb) (.inr hc.1),
        adjAll_cons.2 ⟨madeOk_letters (.inr hc.1) (.inr hc.2.1), adjAll_cons.2 ⟨madeOk_letters (.inr hc.2.1) (.inl he), adjAll_single⟩⟩⟩⟩
    | ccvcv hab hc hd he =>
      exact adjAll_cons.2 ⟨madeOk_letters (.inr (initial_consonants hab).1) (.inr (initial_consonants hab).2),
        adjAll_cons.2 ⟨madeOk_letters (.inr (initial_consonants hab).2) (.inl hc),
        adjAll_cons.2 ⟨madeOk_letters (.inl hc) (.inr hd), adjAll_cons.2 ⟨madeOk_letters (.inr hd) (.inl he), adjAll_single⟩⟩⟩⟩

theorem tarmi_last_vowel {x : Str}
    (h : rafsiTarmi x = .cvv ∨ rafsiTarmi x = .cvhv ∨ rafsiTarmi x = .ccv ∨ rafsiTarmi x = .cvccv ∨ rafsiTarmi x = .ccvcv) :
    ∃ l, x.getLast? = some l ∧ Vowel l := by
  rcases h with h | h | h | h | h
  · obtain ⟨a, b, c, rfl, -, -, h⟩ := tarmi_cvv.1 h; exact ⟨c, rfl, (isVowel_iff c).1 h⟩
  · obtain ⟨a, b, c, rfl, -, -, h⟩ := tarmi_cvhv.1 h; exact ⟨c, rfl, (isVowel_iff c).1 h⟩
  · obtain ⟨a, b, c, rfl, -, -, h⟩ := tarmi_ccv.1 h; exact ⟨c, rfl, (isVowel_iff c).1 h⟩
  · obtain ⟨a, b, c, d, e, rfl, -, -, -, -, h⟩ := tarmi_cvccv.1 h; exact ⟨e, rfl, (isVowel_iff e).1 h⟩
  · obtain ⟨a, b, c, d, e, rfl, -, -, -, -, h⟩ := tarmi_ccvcv.1 h; exact ⟨e, rfl, (isVowel_iff e).1 h⟩

/-- The forms of a CLL rafsi. -/
theorem cllForms_mem2 {x : Str} {f l : Bool} {co : Consonants} {o : RafsiOpt} (h : o ∈ cllForms x (rafsiTarmi x) f l co) :
    o.1 = x ∨ (o.1 = x ++ s%"y" ∧ rafsiTarmi x ≠ .cvv ∧ rafsiTarmi x ≠ .cvhv) ∨
    (o.1 = x ++ s%"'y" ∧ (∃ c, x.getLast? = some c ∧ Vowel c) ∧ (f = true → rafsiTarmi x ≠ .cvv ∧ rafsiTarmi x ≠ .cvhv)) ∨
    (o.1 = x ++ s%"'" ∧ ∃ c, x.getLast? = some c ∧ Vowel c) := by
  have key := @tarmi_last_vowel x
  unfold cllForms at h
  cases ht : rafsiTarmi x <;> rw [ht] at h key <;> cases f <;> cases l <;> simp at h key <;> grind

/-- A form of a CLL rafsi is made of acceptable pairs. -/
theorem cllForms_made {mz : Bool} {x : Str} (hx : Rafsi mz x) {f l : Bool} {co : Consonants} {o : RafsiOpt}
    (h : o ∈ cllForms x (rafsiTarmi x) f l co) : AdjAll MadeOk o.1 := by
  have hm := rafsi_made hx
  obtain ⟨t, l, e, hl⟩ := rafsi_last hx
  rcases cllForms_mem2 h with h | ⟨h, -⟩ | ⟨h, ⟨c, hc, hv⟩, -⟩ | ⟨h, c, hc, hv⟩ <;> rw [h]
  · exact hm
  · refine adjAll_append.2 ⟨hm, adjAll_single, ?_⟩
    intro a b ha hb
    rw [e] at ha
    simp at ha hb
    subst ha; subst hb
    exact madeOk_xy hl
  · refine adjAll_append.2 ⟨hm, adjAll_cons.2 ⟨madeOk_hy, adjAll_single⟩, ?_⟩
    intro a b ha hb
    rw [hc] at ha
    cases ha
    simp at hb
    subst hb
    exact madeOk_vh hv
  · refine adjAll_append.2 ⟨hm, adjAll_single, ?_⟩
    intro a b ha hb
    rw [hc] at ha
    cases ha
    simp at hb
    subst hb
    exact madeOk_vh hv

theorem chooseHyphen_cases {o : CombineOpts} {lujvo : Str} {last first : Char} {t : Tarmi} {hy : Str}
    (h : chooseHyphen o lujvo last first t = some hy) :
    (last = '\'' ∧ hy = s%"y") ∨
    (last ≠ '\'' ∧ hy = []) ∨
    (last ≠ '\'' ∧ lujvo.length ≤ 5 ∧ o.generateCmevla = false ∧
      (tarmiIgnoringHyphen lujvo = .cvv ∨ tarmiIgnoringHyphen lujvo = .cvhv) ∧
      ((hy = s%"'y" ∧ o.yHyphens = .forceY) ∨ (hy = s%"n" ∧ first = 'r' ∧ o.yHyphens ≠ .forceY) ∨
        (hy = s%"r" ∧ first ≠ 'r' ∧ o.yHyphens ≠ .forceY))) := by
  unfold chooseHyphen at h
  split at h
  · rename_i hl
    split at h
    · cases h; exact .inl ⟨hl, rfl⟩
    · cases h
  · rename_i hl
    right
    split at h
    · cases h
    · split at h
      · rename_i h5
        dsimp only at h
        split at h
        · cases h; exact .inl ⟨hl, rfl⟩
        · split at h
          · rename_i ht
            right
            refine ⟨hl, h5.1, by simpa using h5.2, ht.symm, ?_⟩
            split at h
            · rename_i hf; cases h; exact .inl ⟨rfl, hf⟩
            · rename_i hf
              split at h
              · rename_i hr; cases h; exact .inr (.inl ⟨rfl, hr, hf⟩)
              · rename_i hr; cases h; exact .inr (.inr ⟨rfl, hr, hf⟩)
          · cases h; exact .inl ⟨hl, rfl⟩
      · cases h; exact .inl ⟨hl, rfl⟩

theorem stripBoth_clean {p : Char → Bool} {x t : Str} (h1 : ∀ c, x.head? = some c → p c = false)
    (h2 : ∀ c, x.getLast? = some c → p c = false) (hx : x ≠ []) (ht : t.all p = true) : stripBoth p (x ++ t) = x := by
  unfold stripBoth
  have d1 : (x ++ t).dropWhile p = x ++ t := by
    cases x with
    | nil => exact absurd rfl hx
    | cons a x => simp [h1 a rfl]
  rw [d1, List.reverse_append]
  have d2 : ∀ (u v : Str), u.all p = true → (u ++ v).dropWhile p = v.dropWhile p := by
    intro u v hu
    induction u with
    | nil => rfl
    | cons a u ih => simp at hu; simp [hu.1]; exact ih (by simpa using hu.2)
  rw [d2 _ _ (by simpa using ht)]
  have d3 : x.reverse.dropWhile p = x.reverse := by
    obtain ⟨l, hl⟩ : ∃ l, x.getLast? = some l := ⟨x.getLast hx, List.getLast?_eq_some_getLast hx⟩
    obtain ⟨u, rfl⟩ := List.getLast?_eq_some_iff.1 hl
    simp [h2 l hl]
  rw [d3, List.reverse_reverse]

theorem hyphenLetter_false {c : Char} (h : Vowel c ∨ Consonant c) : isHyphenLetter c = false := by
  unfold isHyphenLetter
  have : c ≠ 'y' ∧ c ≠ '\'' := by
    constructor <;> rintro rfl <;> revert h <;> decide
  simp [this]

theorem rafsi_last? {mz : Bool} {x : Str} (h : Rafsi mz x) {c : Char} (hc : x.getLast? = some c) : Vowel c ∨ Consonant c := by
  obtain ⟨t, l, rfl, hl⟩ := rafsi_last h
  simp at hc
  subst hc
  exact hl

theorem rafsi_head? {mz : Bool} {x : Str} (h : Rafsi mz x) {c : Char} (hc : x.head? = some c) : Consonant c := by
  obtain ⟨a, t, rfl, ha⟩ := rafsi_first h
  simp at hc
  subst hc
  exact (isConsonant_iff _).1 ha

theorem rafsi_ne_nil {mz : Bool} {x : Str} (h : Rafsi mz x) : x ≠ [] := by
  rintro rfl
  have := rafsi_length h
  simp at this

theorem strip_form {mz : Bool} {x t : Str} (h : Rafsi mz x) (ht : t.all isHyphenLetter = true) : stripHyphens (x ++ t) = x :=
  stripBoth_clean (fun _ hc => hyphenLetter_false (.inr (rafsi_head? h hc))) (fun _ hc => hyphenLetter_false (rafsi_last? h hc))
    (rafsi_ne_nil h) ht

/-- `r` is a form of a CLL rafsi. -/
def CllForm (mz first : Bool) (r : RafsiOpt) : Prop :=
  ∃ x l co, Rafsi mz x ∧ r ∈ cllForms x (rafsiTarmi x) first l co

theorem CllForm.made {mz f : Bool} {r : RafsiOpt} (h : CllForm mz f r) : AdjAll MadeOk r.1 := by
  obtain ⟨x, l, co, hx, hr⟩ := h
  exact cllForms_made hx hr

theorem CllForm.spell {mz f : Bool} {r : RafsiOpt} (h : CllForm mz f r) :
    ∃ x t, Rafsi mz x ∧ r.1 = x ++ t ∧ t.all isHyphenLetter = true ∧
      (t = [] ∨ t = s%"y" ∧ rafsiTarmi x ≠ .cvv ∧ rafsiTarmi x ≠ .cvhv ∨
        t = s%"'y" ∧ (f = true → rafsiTarmi x ≠ .cvv ∧ rafsiTarmi x ≠ .cvhv) ∨ t = s%"'") := by
  obtain ⟨x, l, co, hx, hr⟩ := h
  rcases cllForms_mem2 hr with h | ⟨h, h'⟩ | ⟨h, -, h'⟩ | ⟨h, -⟩
  · exact ⟨x, [], hx, by simpa using h, rfl, .inl rfl⟩
  · exact ⟨x, s%"y", hx, h, rfl, .inr (.inl ⟨rfl, h'⟩)⟩
  · exact ⟨x, s%"'y", hx, h, rfl, .inr (.inr (.inl ⟨rfl, h'⟩))⟩
  · exact ⟨x, s%"'", hx, h, rfl, .inr (.inr (.inr rfl))⟩

theorem CllForm.head {mz f : Bool} {r : RafsiOpt} (h : CllForm mz f r) {c : Char} (hc : r.1.head? = some c) : Consonant c := by
  obtain ⟨x, t, hx, e, -⟩ := h.spell
  rw [e] at hc
  cases x with
  | nil => exact absurd rfl (rafsi_ne_nil hx)
  | cons a x => exact rafsi_head? hx hc

theorem CllForm.length {mz f : Bool} {r : RafsiOpt} (h : CllForm mz f r) : 3 ≤ r.1.length := by
  obtain ⟨x, t, hx, e, -⟩ := h.spell
  have := (rafsi_length hx).1
  rw [e, List.length_append]; omega

theorem CllForm.first_last {mz : Bool} {r : RafsiOpt} (h : CllForm mz true r)
    (ht : tarmiIgnoringHyphen r.1 = .cvv ∨ tarmiIgnoringHyphen r.1 = .cvhv) {c : Char} (hc : r.1.getLast? = some c)
    (hq : c ≠ '\'') : Vowel c := by
  obtain ⟨x, t, hx, e, ha, hcase⟩ := h.spell
  unfold tarmiIgnoringHyphen at ht
  rw [e, strip_form hx ha] at ht
  rcases hcase with rfl | ⟨rfl, h1, h2⟩ | ⟨rfl, h'⟩ | rfl
  · obtain ⟨l, hl, hv⟩ := tarmi_last_vowel (x := x) (by rcases ht with h | h <;> simp [h])
    rw [e, List.append_nil, hl] at hc
    cases hc; exact hv
  · rcases ht with h | h <;> contradiction
  · obtain ⟨h1, h2⟩ := h' rfl
    rcases ht with h | h <;> contradiction
  · rw [e] at hc
    simp at hc
    exact absurd hc.symm hq

theorem combine_made {o : CombineOpts} {lujvo rafsi : Str} {lc rc : Nat} {sc : Int}
    {il : List (Nat × Nat)} {tos : Tos} {c : Cand}
    (h : combine o lujvo rafsi lc rc sc il tos = .ok (some c))
    (hl : AdjAll MadeOk lujvo) (hr : AdjAll MadeOk rafsi) (hf : ∀ c, rafsi.head? = some c → Consonant c)
    (hv : lujvo.length ≤ 5 → (tarmiIgnoringHyphen lujvo = .cvv ∨ tarmiIgnoringHyphen lujvo = .cvhv) →
      ∀ c, lujvo.getLast? = some c → c ≠ '\'' → Vowel c) : AdjAll MadeOk c.lujvo := by
  obtain ⟨last, first, hy, new, h1, h2, -, -, -, -, -, hh, -, -, -, -, he, -⟩ := combine_some h
  rw [he]
  have hfc := hf first h2
  have pair : last ≠ '\'' → ∀ b, Consonant b → MadeOk last b := by
    intro hq b hb
    exact ⟨⟨fun e => absurd e (consonant_ne_y hb).2, fun e => absurd e hq⟩, fun _ => hb⟩
  have cc : ∀ a b, Consonant a → Consonant b → MadeOk a b := fun a b ha hb => madeOk_letters (.inr ha) (.inr hb)
  rcases chooseHyphen_cases hh with ⟨rfl, rfl⟩ | ⟨hq, rfl⟩ | ⟨hq, h5, -, ht, ⟨rfl, -⟩ | ⟨rfl, -⟩ | ⟨rfl, -⟩⟩
  · refine adjAll_append.2 ⟨adjAll_append.2 ⟨hl, adjAll_single, ?_⟩, hr, ?_⟩
    · intro a b ha hb; rw [h1] at ha; cases ha; cases hb; exact madeOk_hy
    · intro a b ha hb; rw [h2] at hb; cases hb; simp at ha; subst ha; exact madeOk_yc hfc
  · rw [List.append_nil]
    refine adjAll_append.2 ⟨hl, hr, ?_⟩
    intro a b ha hb; rw [h1] at ha; rw [h2] at hb; cases ha; cases hb; exact pair hq _ hfc
  · refine adjAll_append.2 ⟨adjAll_append.2 ⟨hl, adjAll_cons.2 ⟨madeOk_hy, adjAll_single⟩, ?_⟩, hr, ?_⟩
    · intro a b ha hb; rw [h1] at ha; cases ha; cases hb; exact madeOk_vh (hv h5 ht _ h1 hq)
    · intro a b ha hb
      rw [h2] at hb; cases hb
      rw [getLast?_append_ne _ (by simp)] at ha
      simp at ha; subst ha; exact madeOk_yc hfc
  · refine adjAll_append.2 ⟨adjAll_append.2 ⟨hl, adjAll_single, ?_⟩, hr, ?_⟩
    · intro a b ha hb; rw [h1] at ha; cases ha; cases hb; exact pair hq _ (by decide)
    · intro a b ha hb; rw [h2] at hb; cases hb; simp at ha; subst ha; exact cc _ _ (by decide) hfc
  · refine adjAll_append.2 ⟨adjAll_append.2 ⟨hl, adjAll_single, ?_⟩, hr, ?_⟩
    · intro a b ha hb; rw [h1] at ha; cases ha; cases hb; exact pair hq _ (by decide)
    · intro a b ha hb; rw [h2] at hb; cases hb; simp at ha; subst ha; exact cc _ _ (by decide) hfc

theorem Built.length {o : CombineOpts} {N : Nat} {rs : List RafsiOpt} {c : Cand} (h : Built o N rs c)
    (hr : ∀ r ∈ rs, 3 ≤ r.1.length) : 6 ≤ c.lujvo.length := by
  induction h with
  | @two r0 r1 c h =>
    obtain ⟨_, _, hy, _, _, _, _, _, _, _, _, _, _, _, _, _, hl, _⟩ := combine_some h
    have h0 := hr r0 (by simp)
    have h1 := hr r1 (by simp)
    rw [hl]; simp; omega
  | @more rs r c c' _ h ih =>
    obtain ⟨_, _, hy, _, _, _, _, _, _, _, _, _, _, _, _, _, hl, _⟩ := combine_some h
    have := ih (fun r hr' => hr r (by simp [hr']))
    rw [hl]; simp; omega

theorem Built.made {o : CombineOpts} {N : Nat} {rs : List RafsiOpt} {c : Cand} (h : Built o N rs c) {mz : Bool}
    (h0 : ∀ r, rs.head? = some r → CllForm mz true r) (hr : ∀ r ∈ rs, ∃ f, CllForm mz f r) : AdjAll MadeOk c.lujvo := by
  induction h with
  | @two r0 r1 c h =>
    have f0 := h0 r0 rfl
    obtain ⟨f, f1⟩ := hr r1 (by simp)
    exact combine_made h f0.made f1.made (fun c hc => f1.head hc) (fun _ ht c hc hq => f0.first_last ht hc hq)
  | @more rs r c c' hb h ih =>
    have hr' : ∀ r ∈ rs, ∃ f, CllForm mz f r := fun r h => hr r (by simp [h])
    obtain ⟨f, f1⟩ := hr r (by simp)
    refine combine_made h (ih ?_ hr') f1.made (fun c hc => f1.head hc) ?_
    · obtain ⟨r0, rest, _, rfl, _⟩ := hb.prefix
      intro r e; exact h0 r (by simpa using e)
    · have := hb.length (fun r h => by obtain ⟨f, hf⟩ := hr' r h; exact hf.length)
      intro h5; omega

theorem picks_mem {α : Type} {ls : List (List α)} {xs : List α} (h : Picks ls xs) : ∀ x ∈ xs, ∃ l ∈ ls, x ∈ l := by
  induction h with
  | nil => intro x hx; cases hx
  | cons h1 _ ih =>
    intro x hx
    rcases List.mem_cons.1 hx with rfl | hx
    · exact ⟨_, List.mem_cons_self .., h1⟩
    · obtain ⟨l, hl, hx⟩ := ih x hx; exact ⟨l, List.mem_cons_of_mem _ hl, hx⟩

/-- What the search makes from CLL rafsi. -/
theorem getLujvoFromList_made {R : Rec} {s : Settings} {g : Bool} {xs : List Str} {r : Str × Int × List (Nat × Nat)}
    (hx : ∀ x ∈ xs, Rafsi s.allowMz x)
    (h : getLujvoFromList R s g (xs.map (fun x => s%"-" ++ x ++ s%"-")) = .ok r) :
    AdjAll MadeOk r.1 ∧ 2 ≤ xs.length := by
  obtain ⟨ll, rs, c, l, hll, hp, hb, -, -, -, -, rfl, -⟩ := getLujvoFromList_ok h
  unfold getRafsiListList at hll
  rw [rafsiListListFrom_cll hx] at hll
  cases hll
  refine ⟨hb.made (mz := s.allowMz) ?_ ?_, ?_⟩
  · intro r hr
    cases xs with
    | nil => cases hp; cases hr
    | cons x xs =>
      rw [List.mapIdx_cons] at hp
      cases hp with
      | cons h1 h2 =>
        cases hr
        exact ⟨x, _, _, hx x (by simp), h1⟩
  · intro r hr
    obtain ⟨l, hl, hrl⟩ := picks_mem hp r hr
    obtain ⟨i, hi, rfl⟩ := List.mem_mapIdx.1 hl
    exact ⟨_, _, _, _, hx _ (List.getElem_mem hi), hrl⟩
  · have := picks_length hp
    have h2 : 2 ≤ rs.length := by
      clear hp this h
      induction hb with
      | two => simp
      | more _ _ ih => simp; omega
    simp at this
    omega

end Jvotci
