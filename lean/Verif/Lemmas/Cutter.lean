import Verif.Lemmas.Groups

/-!
# Helper lemmas: `jvokaha_2` finds every locally well-formed sequence of rafsi and hyphens
-/

namespace Jvotci

open Spec

/-- A consonant at the front of what follows begins a rafsi there. -/
def Fine (rest : Str) : Prop :=
  ∀ d t, rest = d :: t → isConsonant d = true → ∃ e f u, t = e :: f :: u ∧ e ≠ 'y'

theorem initial_cons {a b : Char} (h : InitialPair a b) : isConsonant a = true ∧ isConsonant b = true := by
  have key : ∀ p ∈ initialPairs, ∀ a b, p = [a, b] → isConsonant a = true ∧ isConsonant b = true := by
    intro p hp
    have : ∀ p ∈ initialPairs, p.all isConsonant = true := by decide
    rintro a b rfl
    simpa using this _ hp
  exact key _ h a b rfl

theorem apos_isConsonant : isConsonant '\'' = false := by decide
theorem apos_isVowel : isVowel '\'' = false := by decide

theorem takeRafsi_cut {mz : Bool} {orig p rest : Str} (h : Cuts mz p rest)
    (hf0 : rafsiTarmi p ≠ .cvv → rafsiTarmi p ≠ .cvhv → Fine rest)
    (ho : ¬ (p ++ rest = orig ∧ rafsiTarmi p = .ccv ∧ rest.take 2 = s%"'y")) :
    takeRafsi mz orig (p ++ rest) = .ok (.pieces [p] rest) ∨
    (∃ t, rest = 'y' :: t ∧ takeRafsi mz orig (p ++ rest) = .ok (.pieces [p, s%"y"] t)) ∨
    (rest = [] ∧ takeRafsi mz orig (p ++ rest) = .ok (.final p)) := by
  cases h with
  | @cvv a b c _ ha hb hc hd =>
    left
    have h1 : rafsiTarmi [a, b, c] = .cvv := tarmi_cvv.2 ⟨a, b, c, rfl, ha, hb, hc⟩
    unfold takeRafsi
    rw [if_pos ⟨by simpa [slice] using h1, by simpa [slice] using hd⟩]
    simp [slice]
  | @cvhv a b c _ ha hb hc =>
    left
    have h1 : rafsiTarmi [a, b, '\'', c] = .cvhv := tarmi_cvhv.2 ⟨a, b, c, rfl, ha, hb, hc⟩
    have h2 : rafsiTarmi [a, b, '\''] ≠ .cvv := by
      intro h; obtain ⟨_, _, _, e, -, -, h⟩ := tarmi_cvv.1 h; cases e; revert h; decide
    unfold takeRafsi
    rw [if_neg (by simp [slice, h2]), if_pos (by simpa [slice] using h1)]
    simp [slice]
  | @cvcc a b c d _ ha hb hcd hr =>
    have hc := (isConsonant_iff c).2 hcd.1
    have hd := (isConsonant_iff d).2 hcd.2.1
    have hcv := not_vowel_of_consonant hc
    have hdv := not_vowel_of_consonant hd
    have hp : (validPairs mz).contains [c, d] = true := validPairs_contains.2 hcd
    rcases hr with rfl | ⟨t, rfl⟩
    · left
      simp at hp
      simp [takeRafsi, slice, rafsiTarmi, ha, hb, hc, hd, hcv, hdv, badFour, hp]
    · right; left
      refine ⟨t, rfl, ?_⟩
      simp at hp
      simp [takeRafsi, slice, rafsiTarmi, ha, hb, hc, hd, hcv, hdv, badFour, hp]
  | @ccvc a b c d _ hab hv hd hr =>
    obtain ⟨ha, hb⟩ := initial_cons hab
    have hbv := not_vowel_of_consonant hb
    have hdv := not_vowel_of_consonant hd
    have hp : INITIAL.contains [a, b] = true := initial_contains.2 hab
    rcases hr with rfl | ⟨t, rfl⟩
    · left
      simp at hp
      simp [takeRafsi, slice, rafsiTarmi, ha, hb, hv, hd, hbv, badFour, hp]
    · right; left
      refine ⟨t, rfl, ?_⟩
      simp at hp
      simp [takeRafsi, slice, rafsiTarmi, ha, hb, hv, hd, hbv, badFour, hp]
  | gismu hg =>
    right; right
    refine ⟨rfl, ?_⟩
    cases hg with
    | @cvccv a b c d e ha hb hcd he =>
      replace ha := (isConsonant_iff a).2 ha
      replace hb := (isVowel_iff b).2 hb
      replace he := (isVowel_iff e).2 he
      have hc := (isConsonant_iff c).2 hcd.1
      have hd := (isConsonant_iff d).2 hcd.2.1
      have hcv := not_vowel_of_consonant hc
      have hdv := not_vowel_of_consonant hd
      have hp : (validPairs mz).contains [c, d] = true := validPairs_contains.2 hcd
      have hy : e ≠ 'y' := by rintro rfl; revert he; decide
      simp at hp
      simp [takeRafsi, slice, rafsiTarmi, isGismuShape, ha, hb, hc, hd, he, hcv, hdv, badFour, hp, hy]
    | @ccvcv a b c d e hab hv hd he =>
      obtain ⟨ha, hb⟩ := initial_cons hab
      replace hv := (isVowel_iff c).2 hv
      replace hd := (isConsonant_iff d).2 hd
      replace he := (isVowel_iff e).2 he
      have hbv := not_vowel_of_consonant hb
      have hdv := not_vowel_of_consonant hd
      have hp : INITIAL.contains [a, b] = true := initial_contains.2 hab
      have hy : e ≠ 'y' := by rintro rfl; revert he; decide
      simp at hp
      simp [takeRafsi, slice, rafsiTarmi, isGismuShape, ha, hb, hv, hd, he, hbv, not_consonant_of_vowel hv, badFour, hp, hy]
  | @cvc a b c _ ha hb hc hpair htri =>
    left
    have hf := hf0 (by rw [tarmi_cvc.2 ⟨a, b, c, rfl, ha, hb, hc⟩]; decide) (by rw [tarmi_cvc.2 ⟨a, b, c, rfl, ha, hb, hc⟩]; decide)
    have hcv := not_vowel_of_consonant hc
    have hca : c ≠ '\'' := by rintro rfl; revert hc; decide
    match rest with
    | [] => 
      simp [takeRafsi, slice, rafsiTarmi, ha, hb, hc, hcv, badFour, BANNED_TRIPLES]
    | [d] =>
      have hd : isConsonant d = false := by
        cases hd : isConsonant d with
        | false => rfl
        | true => obtain ⟨_, _, _, e, -⟩ := hf d [] rfl hd; cases e
      simp [takeRafsi, slice, rafsiTarmi, ha, hb, hc, hcv, hd, hca, badFour, BANNED_TRIPLES]

    | d :: e :: t =>
      have ht : BANNED_TRIPLES.contains [c, d, e] = false := by
        have := htri d e t rfl
        simpa [BANNED_TRIPLES, bannedTriples] using this
      cases hd : isConsonant d with
      | false =>
        simp at ht
        cases t <;> simp [takeRafsi, slice, rafsiTarmi, ha, hb, hc, hcv, hd, hca, badFour, ht, isGismuShape]
      | true =>
        obtain ⟨e', f, u, e1, hy⟩ := hf d (e :: t) rfl hd
        cases e1
        have hp : (validPairs mz).contains [c, d] = true := validPairs_contains.2 (hpair d _ rfl hd)
        have hdv := not_vowel_of_consonant hd
        simp at ht hp
        simp [takeRafsi, slice, rafsiTarmi, ha, hb, hc, hcv, hd, hdv, badFour, ht, hp, hy]
  | @ccv a b c _ hab hc =>
    left
    obtain ⟨ha, hb⟩ := initial_cons hab
    have hbv := not_vowel_of_consonant hb
    have hcc := not_consonant_of_vowel hc
    have hf := hf0 (by rw [tarmi_ccv.2 ⟨a, b, c, rfl, ha, hb, hc⟩]; decide) (by rw [tarmi_ccv.2 ⟨a, b, c, rfl, ha, hb, hc⟩]; decide)
    have hp : INITIAL.contains [a, b] = true := initial_contains.2 hab
    have hno : ¬ (a :: b :: c :: rest = orig ∧ slice (a :: b :: c :: rest) 3 5 = s%"'y") := by
      rintro ⟨h1, h2⟩
      exact ho ⟨h1, tarmi_ccv.2 ⟨a, b, c, rfl, ha, hb, hc⟩, by simpa [slice] using h2⟩
    simp at hp
    match rest with
    | [] => simp [takeRafsi, slice, rafsiTarmi, ha, hb, hc, hbv, hp, badFour]
    | [d] =>
      have hd : isConsonant d = false := by
        cases hd : isConsonant d with
        | false => rfl
        | true => obtain ⟨_, _, _, e, -⟩ := hf d [] rfl hd; cases e
      simp [takeRafsi, slice, rafsiTarmi, ha, hb, hc, hbv, hp, hd, badFour]
    | d :: e :: t =>
      have hno' : ¬ (a :: b :: c :: d :: e :: t = orig ∧ d = '\'' ∧ e = 'y') := by
        simpa [slice] using hno
      cases hd : isConsonant d with
      | false =>
        cases t <;> simp [takeRafsi, slice, rafsiTarmi, ha, hb, hc, hbv, hp, hd, badFour, isGismuShape] <;>
          simpa using hno'
      | true =>
        obtain ⟨e', f, u, e1, hy⟩ := hf d (e :: t) rfl hd
        cases e1
        have hdv := not_vowel_of_consonant hd
        simp [takeRafsi, slice, rafsiTarmi, ha, hb, hc, hbv, hp, hd, badFour, hy]

theorem hyphen_none {y : YHyphens} {p rest : Str} {mz : Bool} (h : Rafsi mz p) (res : List Str) :
    takeHyphen y (p ++ rest) res = .ok none := by
  have hv : ∀ {c}, Vowel c → isConsonant c = false := fun h => not_consonant_of_vowel ((isVowel_iff _).2 h)
  have key : ∀ (a b : Char) (t : Str), Consonant a → (Vowel b ∨ InitialPair a b) →
      takeHyphen y (a :: b :: t) res = .ok none := by
    intro a b t ha hb
    have hay := (consonant_ne_y ha)
    cases res with
    | nil => rfl
    | cons prev res =>
      have hnr : ¬ (a = 'n' ∧ b = 'r') := by
        rintro ⟨rfl, rfl⟩
        rcases hb with hb | hb
        · revert hb; decide
        · revert hb; decide
      have hr : a = 'r' → isConsonant b = false := by
        rintro rfl
        rcases hb with hb | hb
        · exact hv hb
        · exfalso
          have : ∀ p ∈ initialPairs, p.head? ≠ some 'r' := by decide
          exact this _ hb rfl
      unfold takeHyphen
      by_cases h1 : prev.length = 1
      · simp [h1]
      · simp only [if_neg h1, if_neg hay.1]
        have hs : slice (a :: b :: t) 0 2 = [a, b] := by simp [slice]
        rw [hs]
        have h2 : ([a, b] : Str) ≠ s%"nr" := by simpa using hnr
        have h3 : ([a, b] : Str) ≠ s%"'y" := by simp [hay.2]
        by_cases har : a = 'r'
        · have := hr har
          by_cases hfy : y = .forceY <;> simp [hfy, har, this, bind, Except.bind]
        · by_cases hfy : y = .forceY <;> simp [hfy, h2, har, hay.2, bind, Except.bind] <;> simp_all
  have hi : ∀ {a b}, InitialPair a b → Consonant a := fun h => (isConsonant_iff _).1 (initial_cons h).1
  cases h with
  | cvv ha hb => exact key _ _ _ ha (.inl hb)
  | cvhv ha hb => exact key _ _ _ ha (.inl hb)
  | cvc ha hb => exact key _ _ _ ha (.inl hb)
  | ccv ha => exact key _ _ _ (hi ha) (.inr ha)
  | cvcc ha hb => exact key _ _ _ ha (.inl hb)
  | ccvc ha => exact key _ _ _ (hi ha) (.inr ha)
  | gismu h =>
    cases h with
    | cvccv ha hb => exact key _ _ _ ha (.inl hb)
    | ccvcv ha => exact key _ _ _ (hi ha) (.inr ha)

theorem rafsi_fine {mz : Bool} {p rest : Str} (h : Rafsi mz p) : Fine (p ++ rest) := by
  have hv : ∀ {c}, Vowel c → c ≠ 'y' := fun h => (vowel_ne_y' h).1
  have hi : ∀ {a b}, InitialPair a b → b ≠ 'y' := fun h e => by
    have := (initial_cons h).2; rw [e] at this; revert this; decide
  intro d t e _
  cases h with
  | cvv ha hb => cases e; exact ⟨_, _, _, rfl, hv hb⟩
  | cvhv ha hb => cases e; exact ⟨_, _, _, rfl, hv hb⟩
  | cvc ha hb => cases e; exact ⟨_, _, _, rfl, hv hb⟩
  | ccv ha => cases e; exact ⟨_, _, _, rfl, hi ha⟩
  | cvcc ha hb => cases e; exact ⟨_, _, _, rfl, hv hb⟩
  | ccvc ha => cases e; exact ⟨_, _, _, rfl, hi ha⟩
  | gismu h =>
    cases h with
    | cvccv ha hb => cases e; exact ⟨_, _, _, rfl, hv hb⟩
    | ccvcv ha => cases e; exact ⟨_, _, _, rfl, hi ha⟩

theorem Chop.fine {y : YHyphens} {mz : Bool} {p : Str} {ps : List Str} (h : Chop y mz (some p) ps)
    (h1 : rafsiTarmi p ≠ .cvv) (h2 : rafsiTarmi p ≠ .cvhv) : Fine (join ps) := by
  generalize hp : some p = prev at h
  cases h with
  | nil => intro d t e; cases e
  | y => intro d t e hd; cases e; exact absurd hd (by decide)
  | n _ _ ht => cases hp; rcases ht with ht | ht <;> contradiction
  | r _ _ ht => cases hp; rcases ht with ht | ht <;> contradiction
  | hy => intro d t e hd; cases e; exact absurd hd (by decide)
  | rafsi hc _ => simpa [join] using rafsi_fine hc.rafsi

/-- The loop finds the pieces. -/
theorem jvokaha2Loop_chop {y : YHyphens} {mz : Bool} {orig : Str} :
    ∀ {fuel : Nat} {ps res : List Str}, Chop y mz res.head? ps → (join ps).length < fuel →
    (∀ p t, join ps = orig → ps = p :: t → rafsiTarmi p = .ccv → (join t).take 2 ≠ s%"'y") →
    (join ps).length ≤ orig.length →
    jvokaha2Loop y mz orig fuel (join ps) res = .ok (res.reverse ++ ps) := by
  intro fuel
  induction fuel with
  | zero => intro ps res _ h; omega
  | succ fuel ih =>
    intro ps res h hl hs ho
    unfold jvokaha2Loop
    by_cases he : join ps = []
    · rw [if_pos he, h.nil_of_join he]; simp
    rw [if_neg he]
    cases ps with
    | nil => exact absurd rfl he
    | cons p ps =>
      have hj : join (p :: ps) = p ++ join ps := by simp [join]
      rw [hj] at hl ho ⊢
      simp only [List.length_append] at hl ho
      have hrec : ∀ (qs res' : List Str), Chop y mz res'.head? qs → (join qs).length < (p ++ join ps).length →
          jvokaha2Loop y mz orig fuel (join qs) res' = .ok (res'.reverse ++ qs) := by
        intro qs res' hq hlen
        simp only [List.length_append] at hlen
        refine ih hq (by omega) ?_ (by omega)
        intro _ _ e
        rw [e] at hlen
        omega
      generalize hprev : res.head? = prev at h
      have hy2 : ∀ (q : Str), prev = some q → q.length ≠ 1 → ∃ res', res = q :: res' := by
        intro q hq _
        subst hq
        cases res with
        | nil => cases hprev
        | cons a r => cases hprev; exact ⟨r, rfl⟩
      cases h with
      | @y pv _ hlen hch =>
        obtain ⟨res', rfl⟩ := hy2 _ rfl hlen
        have : takeHyphen y (s%"y" ++ join ps) (pv :: res') = .ok (some s%"y") := by
          unfold takeHyphen; dsimp only; rw [if_neg hlen]; rfl
        rw [this, ok_bind]
        dsimp only
        rw [show List.drop (s%"y").length (s%"y" ++ join ps) = join ps from rfl,
          hrec ps (s%"y" :: pv :: res') hch (by simp)]
        simp
      | @n pv _ _ hlen hfy ht hjo hch =>
        obtain ⟨res', rfl⟩ := hy2 _ rfl hlen
        have : takeHyphen y (s%"n" ++ join ps) (pv :: res') = .ok (some s%"n") := by
          unfold takeHyphen
          dsimp only
          rw [if_neg hlen, hjo]
          rcases ht with ht | ht <;> simp [hfy, slice, ht, bind, Except.bind]
        rw [this, ok_bind]
        dsimp only
        rw [show List.drop (s%"n").length (s%"n" ++ join ps) = join ps from rfl,
          hrec ps (s%"n" :: pv :: res') hch (by simp)]
        simp
      | @r pv _ _ _ hlen hfy ht hjo hc hcr hch =>
        obtain ⟨res', rfl⟩ := hy2 _ rfl hlen
        have : takeHyphen y (s%"r" ++ join ps) (pv :: res') = .ok (some s%"r") := by
          unfold takeHyphen
          dsimp only
          rw [if_neg hlen, hjo]
          rcases ht with ht | ht <;> simp [hfy, slice, ht, hc, hcr, bind, Except.bind]
        rw [this, ok_bind]
        dsimp only
        rw [show List.drop (s%"r").length (s%"r" ++ join ps) = join ps from rfl,
          hrec ps (s%"r" :: pv :: res') hch (by simp)]
        simp
      | @hy pv _ hlen hst hch =>
        obtain ⟨res', rfl⟩ := hy2 _ rfl hlen
        have : takeHyphen y (s%"'y" ++ join ps) (pv :: res') = .ok (some s%"'y") := by
          unfold takeHyphen
          dsimp only
          rw [if_neg hlen]
          by_cases hfy : y = .forceY <;> simp [hfy, hst, slice, bind, Except.bind]
        rw [this, ok_bind]
        dsimp only
        rw [show List.drop (s%"'y").length (s%"'y" ++ join ps) = join ps from rfl,
          hrec ps (s%"'y" :: pv :: res') hch (by simp; omega)]
        simp
      | rafsi hc hch =>
        have hp3 := hc.length_pos
        rw [hyphen_none hc.rafsi, ok_bind]
        dsimp only
        rcases takeRafsi_cut (orig := orig) hc hch.fine (by
          rintro ⟨h1, h2, h3⟩
          exact hs p ps (by rw [hj]; exact h1) rfl h2 h3) with h1 | ⟨t, h1, h2⟩ | ⟨h1, h2⟩
        · rw [h1, ok_bind]
          dsimp only
          rw [hrec _ _ (by simpa using hch) (by simp; omega)]
          simp
        · rw [h2, ok_bind]
          dsimp only
          obtain ⟨v, rfl⟩ := hch.y_of_join h1
          have hv : join v = t := by simpa [join] using h1
          cases hch with
          | y _ hv' =>
            rw [← hv, hrec _ _ (by simpa using hv') (by simp [join]; omega)]
            simp
          | rafsi hc' _ => exact absurd (rafsi_first hc'.rafsi) (by rintro ⟨x, t, e, hx⟩; cases e; revert hx; decide)
        · rw [h2, ok_bind]
          dsimp only
          rw [hch.nil_of_join h1]
          simp

/-- `jvokaha_2` finds every locally well-formed sequence of pieces, unless it begins with CCV'y. -/
theorem jvokaha2_chop {y : YHyphens} {mz : Bool} {ps : List Str} (h : Chop y mz none ps)
    (hs : ∀ p t, ps = p :: t → rafsiTarmi p = .ccv → (join t).take 2 ≠ s%"'y") :
    jvokaha2 y mz (join ps) = .ok ps := by
  have := jvokaha2Loop_chop (y := y) (mz := mz) (orig := join ps) (fuel := (join ps).length + 1) (res := []) h (by omega)
    (fun p t _ e => hs p t e) (Nat.le_refl _)
  simpa [jvokaha2] using this

end Jvotci
