import Verif.Lemmas.RsTarmi
import Verif.Lemmas.JsForms

/-!
# The search of the Rust crate and that of the Python version, for CLL rafsi
-/

namespace Jvotci

open Spec

/-- A CLL rafsi with the hyphen letters the forms of a component have. -/
def RsForm (w : Str) : Prop :=
  ∃ mz x suf, Rafsi mz x ∧ w = x ++ suf ∧
    (suf = [] ∨ suf = s%"'" ∨ suf = s%"'y" ∨ suf = s%"y" ∧ ∃ c, x.getLast? = some c ∧ Consonant c)

theorem suf_hyphens {x suf : Str} (h : suf = [] ∨ suf = s%"'" ∨ suf = s%"'y" ∨ suf = s%"y" ∧ ∃ c, x.getLast? = some c ∧ Consonant c) :
    suf.all isHyphenLetter = true := by
  rcases h with rfl | rfl | rfl | ⟨rfl, -⟩ <;> decide

theorem rafsi_strip {mz : Bool} {x suf : Str} (h : Rafsi mz x) (hs : suf.all isHyphenLetter = true) : stripHyphens (x ++ suf) = x := by
  refine stripBoth_clean ?_ ?_ ?_ hs
  · intro c hc
    have := rafsi_head? h hc
    simp only [Consonant, List.mem_cons, List.not_mem_nil, or_false] at this
    rcases this with rfl | rfl | rfl | rfl | rfl | rfl | rfl | rfl | rfl | rfl | rfl | rfl | rfl | rfl | rfl | rfl | rfl <;> decide
  · intro c hc
    rcases rafsi_last? h hc with this | this
    · simp only [Vowel, List.mem_cons, List.not_mem_nil, or_false] at this
      rcases this with rfl | rfl | rfl | rfl | rfl <;> decide
    · simp only [Consonant, List.mem_cons, List.not_mem_nil, or_false] at this
      rcases this with rfl | rfl | rfl | rfl | rfl | rfl | rfl | rfl | rfl | rfl | rfl | rfl | rfl | rfl | rfl | rfl | rfl <;> decide
  · rintro rfl
    exact absurd (rafsi_length h).1 (by decide)

theorem RsForm.tarmi {w : Str} (h : RsForm w) : rsTarmiIgnoringHyphen w = tarmiIgnoringHyphen w := by
  obtain ⟨mz, x, suf, hx, rfl, hs⟩ := h
  unfold rsTarmiIgnoringHyphen tarmiIgnoringHyphen
  rw [show rsStripHyphens (x ++ suf) = stripHyphens (x ++ suf) from rfl, rafsi_strip hx (suf_hyphens hs)]
  exact rsTarmi_rafsi hx

theorem RsForm.head {w : Str} (h : RsForm w) : ∃ a t, w = a :: t ∧ Consonant a := by
  obtain ⟨mz, x, suf, hx, rfl, -⟩ := h
  obtain ⟨a, t, rfl, ha⟩ := rafsi_first hx
  exact ⟨a, _, rfl, (isConsonant_iff _).1 ha⟩

theorem RsForm.later {w : Str} (h : RsForm w) : Later w := by
  obtain ⟨a, t, rfl, ha⟩ := h.head
  constructor
  · rw [List.all_cons, Bool.and_eq_false_iff]
    left
    simp only [Consonant, List.mem_cons, List.not_mem_nil, or_false] at ha
    rcases ha with rfl | rfl | rfl | rfl | rfl | rfl | rfl | rfl | rfl | rfl | rfl | rfl | rfl | rfl | rfl | rfl | rfl <;> decide
  · intro hh
    simp at hh
    subst hh
    exact absurd ha (by decide)

theorem RsForm.length {w : Str} (h : RsForm w) : 3 ≤ w.length ∧ w.length ≤ 7 := by
  obtain ⟨mz, x, suf, hx, rfl, hs⟩ := h
  have := rafsi_length hx
  rw [List.length_append]
  rcases hs with rfl | rfl | rfl | ⟨rfl, -⟩ <;> simp <;> omega

theorem rafsi_second {mz : Bool} {x : Str} (h : Rafsi mz x) : ∃ a b c t, x = a :: b :: c :: t ∧ (Vowel b ∨ Consonant b) := by
  cases h with
  | cvv _ hb _ => exact ⟨_, _, _, _, rfl, .inl hb⟩
  | cvhv _ hb _ => exact ⟨_, _, _, _, rfl, .inl hb⟩
  | cvc _ hb _ => exact ⟨_, _, _, _, rfl, .inl hb⟩
  | ccv hp _ => exact ⟨_, _, _, _, rfl, .inr (initial_consonants hp).2⟩
  | cvcc _ hb _ => exact ⟨_, _, _, _, rfl, .inl hb⟩
  | ccvc hp _ _ => exact ⟨_, _, _, _, rfl, .inr (initial_consonants hp).2⟩
  | gismu h =>
    cases h with
    | cvccv _ hb _ _ => exact ⟨_, _, _, _, rfl, .inl hb⟩
    | ccvcv hp _ _ _ => exact ⟨_, _, _, _, rfl, .inr (initial_consonants hp).2⟩

theorem RsForm.three {w : Str} (h : RsForm w) : rsRafsiTarmi (slice w 0 3) = rafsiTarmi (slice w 0 3) := by
  obtain ⟨mz, x, suf, hx, rfl, -⟩ := h
  obtain ⟨a, b, c, t, rfl, hb⟩ := rafsi_second hx
  refine (rsRafsiTarmi_iff _).2 fun ho => ?_
  have e : slice (a :: b :: c :: t ++ suf) 0 3 = [a, b, c] := by simp [slice]
  rw [e] at ho
  cases ho with
  | three _ h1 h2 _ => exact hb.elim h1 h2

theorem odd_length {r : Str} (h : OddShape r) : r.length ≤ 4 := by cases h <;> simp

theorem odd_head {r : Str} (h : OddShape r) (h3 : 3 ≤ r.length) : ∃ a t, r = a :: t ∧ Consonant a := by
  cases h with
  | hyphen => simp at h3
  | three h => exact ⟨_, _, rfl, h⟩
  | cvcc h => exact ⟨_, _, rfl, h⟩
  | ccvc h => exact ⟨_, _, rfl, h⟩

theorem not_vowel_consonant {c : Char} (h : Vowel c) (h' : Consonant c) : False := by
  have := isVowel_not_isConsonant ((isVowel_iff _).2 h)
  rw [(isConsonant_iff _).2 h'] at this
  cases this

/-- A form, with n or r before it or not, has no odd shape. -/
theorem RsForm.not_odd {w : Str} (h : RsForm w) : ¬ OddShape w ∧ ∀ q, q = 'n' ∨ q = 'r' → ¬ OddShape (q :: w) := by
  obtain ⟨mz, x, suf, hx, rfl, hs⟩ := h
  have hlen := rafsi_length hx
  constructor
  · intro ho
    rcases hs with rfl | hs
    · rw [List.append_nil] at ho
      exact rafsi_not_odd hx ho
    · have := odd_length ho
      rw [List.length_append] at this
      rcases hs with rfl | rfl | ⟨rfl, hc⟩
      · obtain ⟨a, b, c, rfl⟩ : ∃ a b c, x = [a, b, c] := by
          match x, hlen, this with
          | [a, b, c], _, _ => exact ⟨a, b, c, rfl⟩
          | _ :: _ :: _ :: _ :: _, _, h => simp at h
        cases ho with
        | cvcc _ _ _ h => exact absurd h (by decide)
        | ccvc _ _ _ _ h => exact h rfl
      · simp at this; omega
      · obtain ⟨a, b, c, rfl⟩ : ∃ a b c, x = [a, b, c] := by
          match x, hlen, this with
          | [a, b, c], _, _ => exact ⟨a, b, c, rfl⟩
          | _ :: _ :: _ :: _ :: _, _, h => simp at h
        obtain ⟨d, hd, hc⟩ := hc
        simp at hd
        subst hd
        cases ho with
        | cvcc _ _ _ h => exact absurd h (by decide)
        | ccvc _ _ h _ _ _ => exact not_vowel_consonant h hc
  · intro q _ ho
    have := odd_length ho
    simp only [List.length_cons, List.length_append] at this
    have hsuf : suf = [] := by
      cases suf with
      | nil => rfl
      | cons a t => simp at this; omega
    subst hsuf
    rw [List.append_nil] at ho
    have this : x.length + 1 ≤ 4 := this
    obtain ⟨a, b, c, rfl⟩ : ∃ a b c, x = [a, b, c] := by
      match x, hlen, this with
      | [a, b, c], _, _ => exact ⟨a, b, c, rfl⟩
      | _ :: _ :: _ :: _ :: _, _, h => simp at h
    have ha := rafsi_head? hx (c := a) rfl
    cases ho with
    | cvcc _ hv _ _ => exact not_vowel_consonant hv ha
    | ccvc _ _ hb hc _ hn =>
      cases hx with
      | cvv _ _ h => exact hc h
      | cvc _ _ h => exact hn ⟨ha, h⟩
      | ccv h _ => exact not_vowel_consonant hb (initial_consonants h).2
      | gismu h => cases h

theorem tiebreak_long {w : Str} (h : 9 ≤ w.length) : rsTiebreak w = tiebreak w := by
  have h5 : ¬ OddShape (w.drop 3) := fun ho => by
    have := odd_length ho
    rw [List.length_drop] at this
    omega
  unfold rsTiebreak tiebreak
  rw [(rsRafsiTarmi_iff _).2 h5]
  simp only [rsRafsiTarmi_safe (.inl rfl)]

theorem tiebreak_two {u w h : Str} (hu : RsForm u) (hw : RsForm w) (hh : h ∈ [[], s%"y", s%"'y", s%"n", s%"r"]) :
    rsTiebreak (u ++ h ++ w) = tiebreak (u ++ h ++ w) := by
  unfold rsTiebreak tiebreak
  simp only [rsRafsiTarmi_safe (.inl rfl)]
  by_cases hc : rafsiTarmi (slice (u ++ h ++ w) 0 3) = .cvv
  · rw [(rsRafsiTarmi_iff _).2]
    obtain ⟨mz, x, suf, hx, rfl, hs⟩ := hu
    obtain ⟨a, b, c, t, rfl, -⟩ := rafsi_second hx
    have e : slice (a :: b :: c :: t ++ suf ++ h ++ w) 0 3 = [a, b, c] := by simp [slice]
    have e2 : (a :: b :: c :: t ++ suf ++ h ++ w).drop 3 = t ++ suf ++ h ++ w := by simp
    rw [e] at hc
    rw [e2]
    intro ho
    have hlw := hw.length
    have hol := odd_length ho
    simp only [List.length_append] at hol
    obtain ⟨q, r, eq, hq⟩ := odd_head ho (by simp only [List.length_append]; omega)
    have hcv : Vowel b ∧ Vowel c := by
      have := hc
      unfold rafsiTarmi at this
      cases h1 : isVowel b <;> cases h2 : isVowel c <;> cases h3 : isConsonant a <;> cases h4 : isConsonant b <;> cases h5 : isConsonant c <;>
        simp [h1, h2, h3, h4, h5] at this
      all_goals exact ⟨(isVowel_iff _).1 h1, (isVowel_iff _).1 h2⟩
    have ht : t = [] := by
      cases hx with
      | cvv => rfl
      | cvhv => exact absurd hcv.2 (by decide)
      | cvc _ _ h => exact (not_vowel_consonant hcv.2 h).elim
      | ccv h _ => exact (not_vowel_consonant hcv.1 (initial_consonants h).2).elim
      | cvcc _ _ h => exact (not_vowel_consonant hcv.2 h.1).elim
      | ccvc h _ _ => exact (not_vowel_consonant hcv.1 (initial_consonants h).2).elim
      | gismu h =>
        cases h with
        | cvccv _ _ h _ => exact (not_vowel_consonant hcv.2 h.1).elim
        | ccvcv h _ _ _ => exact (not_vowel_consonant hcv.1 (initial_consonants h).2).elim
    subst ht
    rw [List.nil_append] at eq ho
    rcases hs with rfl | rfl | rfl | ⟨rfl, d, hd, hdc⟩
    · rw [List.nil_append] at eq ho
      simp only [List.mem_cons, List.not_mem_nil, or_false] at hh
      rcases hh with rfl | rfl | rfl | rfl | rfl
      · exact hw.not_odd.1 ho
      · cases eq; exact absurd hq (by decide)
      · cases eq; exact absurd hq (by decide)
      · exact hw.not_odd.2 'n' (.inl rfl) ho
      · exact hw.not_odd.2 'r' (.inr rfl) ho
    · cases eq; exact absurd hq (by decide)
    · cases eq; exact absurd hq (by decide)
    · simp at hd; subst hd; exact not_vowel_consonant hcv.2 hdc
  · rw [if_neg fun h => hc h.1, if_neg fun h => hc h.1]

/-! ## Putting rafsi together -/

/-- What the search needs to know of the word built so far. -/
structure RsReady (lujvo rafsi : Str) : Prop where
  five : lujvo.length = 5 → rsRafsiTarmi (slice lujvo 0 3) = rafsiTarmi (slice lujvo 0 3)
  tie : ∀ h ∈ [[], s%"y", s%"'y", s%"n", s%"r"], rsTiebreak (lujvo ++ h ++ rafsi) = tiebreak (lujvo ++ h ++ rafsi)

theorem RsReady.two {u w : Str} (hu : RsForm u) (hw : RsForm w) : RsReady u w := ⟨fun _ => hu.three, fun _ hh => tiebreak_two hu hw hh⟩

theorem RsReady.long {u w : Str} (hu : 6 ≤ u.length) (hw : RsForm w) : RsReady u w := by
  have := hw.length
  exact ⟨fun h => by omega, fun h _ => tiebreak_long (by simp only [List.length_append]; omega)⟩

theorem rsChooseHyphen_eq {o : CombineOpts} {lujvo rafsi : Str} {last first : Char} {t : Tarmi} (hl : lujvo.getLast? = some last)
    (hf : rafsi.head? = some first) (h5 : lujvo.length = 5 → rsRafsiTarmi (slice lujvo 0 3) = rafsiTarmi (slice lujvo 0 3)) :
    rsChooseHyphen o lujvo rafsi t = chooseHyphen o lujvo last first t := by
  obtain ⟨rs, rfl⟩ : ∃ rs, rafsi = first :: rs := by
    cases rafsi with
    | nil => cases hf
    | cons a rs => cases hf; exact ⟨rs, rfl⟩
  have hs : (rsTarmiIgnoringHyphen lujvo = .cvhv ∨ rsTarmiIgnoringHyphen lujvo = .cvv) =
      (tarmiIgnoringHyphen lujvo = .cvhv ∨ tarmiIgnoringHyphen lujvo = .cvv) := by
    unfold rsTarmiIgnoringHyphen tarmiIgnoringHyphen
    rw [show rsStripHyphens lujvo = stripHyphens lujvo from rfl, rsRafsiTarmi_safe (.inl rfl), rsRafsiTarmi_safe (.inr (.inl rfl))]
  have h5' : (lujvo.length = 5 ∧ rsRafsiTarmi (slice lujvo 0 3) = .ccv ∧ lujvo.drop 3 = s%"'y") =
      (lujvo.length = 5 ∧ rafsiTarmi (slice lujvo 0 3) = .ccv ∧ lujvo.drop 3 = s%"'y") :=
    propext ⟨fun ⟨a, b⟩ => ⟨a, h5 a ▸ b⟩, fun ⟨a, b⟩ => ⟨a, (h5 a).symm ▸ b⟩⟩
  unfold rsChooseHyphen chooseHyphen
  simp only [rsBack_of hl, rsAt_zero, hs, h5']
  split <;> first | rfl | (split <;> first | rfl | (split <;> first | rfl | (split <;> rfl)))

theorem rsNextTos_eq {tos : Tos} {lujvo rafsi : Str} {last first : Char} {t : Tarmi} (hl : lujvo.getLast? = some last)
    (hf : rafsi.head? = some first) : rsNextTos tos lujvo rafsi t = nextTos tos rafsi last first t := by
  obtain ⟨rs, rfl⟩ : ∃ rs, rafsi = first :: rs := by
    cases rafsi with
    | nil => cases hf
    | cons a rs => cases hf; exact ⟨rs, rfl⟩
  have hy : (rsBack (first :: rs) 1 = 'y') = ((first :: rs).getLast? = some 'y') := by
    obtain ⟨q, hq⟩ : ∃ q, (first :: rs).getLast? = some q := ⟨_, List.getLast?_eq_some_getLast (by simp)⟩
    rw [rsBack_of hq, hq]
    simp
  unfold rsNextTos nextTos
  simp only [rsBack_of hl, rsAt_zero, rsContainsConsonant_eq, hy]
  cases tos with
  | tosmabru => rfl
  | tosynone => rfl
  | tosyhuhu =>
    by_cases h : first = '\'' <;> simp [h]

theorem rsNewConsonants_ok {o : CombineOpts} {lujvo rafsi h : Str} {n m : Nat} (hh : h ∈ [[], s%"y", s%"'y", s%"n", s%"r"])
    (hn : newConsonants o lujvo rafsi h n = .ok m) : rsNewConsonants o lujvo rafsi h n = m := by
  have h1 : (!h.isEmpty && occursIn h s%"nr") = decide (h = s%"n" ∨ h = s%"r") := by
    simp only [List.mem_cons, List.not_mem_nil, or_false] at hh
    rcases hh with rfl | rfl | rfl | rfl | rfl <;> decide
  have h2 : (fun c : Char => (s%"'y").contains c) = isHyphenLetter := by
    funext c
    simp [isHyphenLetter, BEq.beq]
  unfold newConsonants at hn
  unfold rsNewConsonants
  rw [h1, h2]
  simp only [decide_eq_true_eq]
  split at hn
  · rename_i hc; rw [if_pos hc]; cases hn; rfl
  rename_i hc
  rw [if_neg hc]
  split at hn
  · rename_i hcl
    split at hn
    · rename_i h2'
      rw [if_pos ⟨hcl, h2'⟩]
      split at hn
      · rename_i l ls r rs hl hr
        simp only [hl, hr, rsAt_zero, List.head?_cons, Option.getD_some, rsIsConsonant_eq, rsIsGlide_eq]
        split at hn
        · rename_i hx; rw [if_pos hx]; cases hn; rfl
        · rename_i hx; rw [if_neg hx]; cases hn; rfl
      · cases hn
    · rename_i h2'
      simp at h2'; subst h2'; rw [if_neg fun h => h.2 rfl]; cases hn; rfl
  · rename_i hcl
    rw [if_neg fun h => hcl h.1]; cases hn; rfl

theorem rsScore_hyphen {h : Str} (hh : h ∈ [[], s%"y", s%"'y", s%"n", s%"r"]) : rsScore h = score h := by
  simp only [List.mem_cons, List.not_mem_nil, or_false] at hh
  rcases hh with rfl | rfl | rfl | rfl | rfl <;> decide

theorem rsCombine_ok {o : CombineOpts} {o' : CombineOpts} {lujvo rafsi : Str} {lc rc : Nat} {sc : Int} {ix : List (Nat × Nat)}
    {tos : Tos} {r : Option Cand} (hrafsi : RsForm rafsi) (hready : RsReady lujvo rafsi)
    (ho : o' = o ∨ (o.tanruLen ≠ 2 ∧ o'.tanruLen ≠ 2 ∧ o' = { o with tanruLen := o'.tanruLen }))
    (h : combine o lujvo rafsi lc rc sc ix tos = .ok r) : rsCombine o' lujvo rafsi lc rc sc ix tos = r := by
  have hch : ∀ a b t, chooseHyphen o' lujvo a b t = chooseHyphen o lujvo a b t := by
    intro a b t
    rcases ho with rfl | ⟨h1, h2, h3⟩
    · rfl
    · rw [h3]
      unfold chooseHyphen
      simp [h1, h2]
  have e1 : o'.allowMz = o.allowMz := by rcases ho with rfl | ⟨-, -, h3⟩; rfl; rw [h3]
  have e2 : o'.consonants = o.consonants := by rcases ho with rfl | ⟨-, -, h3⟩; rfl; rw [h3]
  have e3 : o'.glides = o.glides := by rcases ho with rfl | ⟨-, -, h3⟩; rfl; rw [h3]
  have hnc : ∀ a b n m, newConsonants o a b n m = newConsonants o' a b n m := by
    intro a b n m
    unfold newConsonants
    rw [e2, e3]
  unfold combine at h
  split at h
  · rename_i last first prev hl hf hp
    obtain ⟨rs, rfl⟩ : ∃ rs, rafsi = first :: rs := by
      cases rafsi with
      | nil => cases hf
      | cons a rs => cases hf; exact ⟨rs, rfl⟩
    have hvp : (if o'.allowMz = true then MZ_VALID else VALID) = validPairs o.allowMz := by rw [e1]; rfl
    have hfirst : Consonant first := by
      obtain ⟨a, t, e, ha⟩ := hrafsi.head
      cases e
      exact ha
    have hfa : first ≠ '\'' := by rintro rfl; exact absurd hfirst (by decide)
    have hyp : (¬ (s%"y'").contains last = true) ↔ (last ≠ 'y' ∧ last ≠ '\'') := by simp
    have hsc : rsScore (first :: rs) = score (first :: rs) := rsScore_of hrafsi.tarmi
    unfold rsCombine
    simp only [rsBack_of hl, rsAt_zero, rsIsConsonant_eq, hvp, hrafsi.tarmi, rsChooseHyphen_eq hl hf hready.five, rsNextTos_eq hl hf,
      hch, hrafsi.later.letter, e2, Bool.not_eq_true', and_false, false_and, Bool.false_eq_true, if_false, hsc]
    simp only at h
    split at h
    · rename_i hc; rw [if_pos hc]; cases h; rfl
    rename_i hc; rw [if_neg hc]
    split at h
    · rename_i hc2
      exact absurd hc2.2.2 hfa
    rename_i hc2
    split at h
    · rename_i hc3; rw [if_pos hc3]; cases h; rfl
    rename_i hc3; rw [if_neg hc3]
    split at h
    · rename_i hc4
      rw [if_pos ⟨by simpa using hyp.2 ⟨hc4.1, hc4.2.1⟩, hc4.2.2⟩]
      cases h; rfl
    rename_i hc4
    rw [if_neg (by
      rintro ⟨a, b⟩
      have := hyp.1 (by simpa using a)
      exact hc4 ⟨this.1, this.2, b⟩)]
    split at h
    · rename_i hc5
      obtain ⟨h5, -⟩ := hc5
      have : slice lujvo prev.1 prev.1 = [] := by simp [slice]
      rw [this] at h5
      exact absurd h5 (by decide)
    cases hh : chooseHyphen o lujvo last first (tarmiIgnoringHyphen (first :: rs)) with
    | none => rw [hh] at h; cases h; rfl
    | some hy =>
      rw [hh] at h
      simp only at h ⊢
      cases ht : nextTos tos (first :: rs) last first (tarmiIgnoringHyphen (first :: rs)) with
      | none => rw [ht] at h; cases h; rfl
      | some t' =>
        rw [ht] at h
        simp only at h ⊢
        cases hn : newConsonants o lujvo (first :: rs) hy rc with
        | error e => rw [hn] at h; cases h
        | ok m =>
          rw [hn] at h
          rw [hnc] at hn
          rw [rsNewConsonants_ok (chooseHyphen_mem hh) hn, rsScore_hyphen (chooseHyphen_mem hh), hready.tie hy (chooseHyphen_mem hh)]
          cases h
          simp only [hfa, reduceIte]
          rfl
  · cases h

theorem rsUpdate_ok {c : Option Cand} {b b' : Best} (h : updateCurrentBest c b = .ok b') : rsUpdateCurrentBest c b = b' := by
  unfold updateCurrentBest at h
  unfold rsUpdateCurrentBest
  cases c with
  | none => cases h; rfl
  | some c =>
    simp only [idxLast] at h ⊢
    cases hl : c.lujvo.getLast? with
    | none => rw [hl] at h; cases h
    | some l => rw [hl] at h; rw [rsBack_of hl]; cases h; rfl

theorem rs_step_ok {o o' : CombineOpts} {a b : Str} {m n : Nat} {sc : Int} {ix : List (Nat × Nat)} {tos : Tos} {best best' : Best}
    (hb : RsForm b) (hr : RsReady a b) (ho : o' = o ∨ (o.tanruLen ≠ 2 ∧ o'.tanruLen ≠ 2 ∧ o' = { o with tanruLen := o'.tanruLen }))
    (h : (do
      let c ← combine o a b m n sc ix tos
      updateCurrentBest c best) = .ok best') : rsUpdateCurrentBest (rsCombine o' a b m n sc ix tos) best = best' := by
  cases hc : combine o a b m n sc ix tos with
  | error e' => rw [hc] at h; cases h
  | ok c =>
    rw [hc] at h
    rw [rsCombine_ok hb hr ho hc]
    exact rsUpdate_ok h

theorem rsInitialTos_eq {g : Bool} {r : Str} (h : RsForm r) : rsInitialTos g r = initialTos g r := by
  unfold rsInitialTos initialTos
  obtain ⟨a, t, e, -⟩ := h.head
  obtain ⟨q, hq⟩ : ∃ q, r.getLast? = some q := ⟨_, List.getLast?_eq_some_getLast (by rw [e]; simp)⟩
  rw [h.tarmi, rsBack_of hq, hq]
  by_cases h : tarmiIgnoringHyphen r = .cvc <;> cases g <;> simp [h]

theorem rsFirstStage_ok {o : CombineOpts} {l0 l1 : List RafsiOpt} {b : Best} (h0 : ∀ r ∈ l0, RsForm r.1) (hl : ∀ r ∈ l1, RsForm r.1)
    (h : firstStage o l0 l1 = .ok b) : rsFirstStage o l0 l1 = b := by
  unfold firstStage at h
  unfold rsFirstStage
  refine foldl_of_foldlM (fun b r0 hr0 x hx => ?_) h
  refine foldl_of_foldlM (fun b r1 h1 x hx => ?_) hx
  rw [rsScore_of (h0 r0 hr0).tarmi, show rsStripHyphens = stripHyphens from rfl, rsInitialTos_eq (h0 r0 hr0)]
  exact rs_step_ok (hl r1 h1) (.two (h0 r0 hr0) (hl r1 h1)) (.inl rfl) hx

theorem rsNextStage_ok {o o' : CombineOpts} {prev : Best} {l : List RafsiOpt} {b : Best} (hl : ∀ r ∈ l, RsForm r.1)
    (hprev : ∀ e ∈ prev, 6 ≤ e.2.1.length)
    (ho : o' = o ∨ (o.tanruLen ≠ 2 ∧ o'.tanruLen ≠ 2 ∧ o' = { o with tanruLen := o'.tanruLen }))
    (h : nextStage o prev l = .ok b) : rsNextStage o' prev l = b := by
  unfold nextStage at h
  unfold rsNextStage
  refine foldl_of_foldlM (fun b r hr x hx => ?_) h
  refine foldl_of_foldlM (fun b t _ x hx => ?_) hx
  refine foldl_of_foldlM (fun b n _ x hx => ?_) hx
  refine foldl_of_foldlM (fun b e he x hx => ?_) hx
  exact rs_step_ok (hl r hr) (.long (hprev _ (mem_bucket.1 he)) (hl r hr)) ho hx

theorem built_six {o : CombineOpts} {N : Nat} {rs : List RafsiOpt} {c : Cand} (h : Built o N rs c) :
    (∀ r ∈ rs, RsForm r.1) → 6 ≤ c.lujvo.length := by
  induction h with
  | @two r0 r1 _ h =>
    intro hf
    obtain ⟨_, _, hy, _, _, _, _, _, _, _, _, _, _, _, _, _, e, _⟩ := combine_some h
    have h0 := (hf r0 (by simp)).length
    have h1 := (hf r1 (by simp)).length
    rw [e]
    simp only [List.length_append]
    omega
  | @more rs r _ _ _ h ih =>
    intro hf
    obtain ⟨_, _, hy, _, _, _, _, _, _, _, _, _, _, _, _, _, e, _⟩ := combine_some h
    have := ih fun r hr => hf r (by simp [hr])
    rw [e]
    simp only [List.length_append]
    omega

theorem sound_six {o : CombineOpts} {N : Nat} {ls : List (List RafsiOpt)} {b : Best} (hf : ∀ l ∈ ls, ∀ r ∈ l, RsForm r.1) (hs : Sound o N ls b) :
    ∀ e ∈ b, 6 ≤ e.2.1.length := by
  intro e he
  obtain ⟨rs, c, hp, hb, l, hl, rfl⟩ := hs e he
  refine built_six hb fun r hr => ?_
  obtain ⟨l, hl, hrl⟩ := picks_mem hp r hr
  exact hf l hl r hrl

theorem rs_searchStages {o : CombineOpts} {ll : List (List RafsiOpt)} {b : Best} (hf : ∀ l ∈ ll, ∀ r ∈ l, RsForm r.1) (h2 : 2 ≤ ll.length)
    (hb : searchStages o ll = .ok b) : rsSearchStages o ll = .ok b := by
  unfold searchStages at hb
  unfold rsSearchStages
  match ll, hf, h2 with
  | l0 :: l1 :: rest, hf, _ =>
    simp only at hb ⊢
    cases h1 : firstStage { o with tanruLen := (l0 :: l1 :: rest).length } l0 l1 with
    | error e => rw [h1] at hb; cases hb
    | ok b1 =>
      rw [h1] at hb
      rw [rsFirstStage_ok (hf l0 (by simp)) (hf l1 (by simp)) h1]
      have hs := firstStage_sound h1
      generalize hN : (l0 :: l1 :: rest).length = N at hs ⊢
      have hN2 : rest ≠ [] → N ≠ 2 := by
        intro h
        have := List.length_pos_iff.2 h
        simp only [List.length_cons] at hN
        omega
      have hb : rest.foldlM (fun b l => nextStage { o with tanruLen := 0 } b l) b1 = .ok b := hb
      have key : ∀ (rest ls : List (List RafsiOpt)) (b0 : Best), (∀ l ∈ ls ++ rest, ∀ r ∈ l, RsForm r.1) → Sound o N ls b0 → (rest ≠ [] → N ≠ 2) →
          rest.foldlM (fun b l => nextStage { o with tanruLen := 0 } b l) b0 = .ok b →
          rest.foldl (fun b l => rsNextStage { o with tanruLen := N } b l) b0 = b := by
        intro rest
        induction rest with
        | nil => intro ls b0 _ _ _ h; cases h; rfl
        | cons l rest ih =>
          intro ls b0 hf h0 hN h
          rw [List.foldlM_cons] at h
          obtain ⟨b1, h1, h⟩ := bind_ok h
          rw [List.foldl_cons, rsNextStage_ok (o := { o with tanruLen := 0 }) (o' := { o with tanruLen := N }) (hf l (by simp))
            (sound_six (fun l hl => hf l (by simp [hl])) h0) (.inr ⟨by simp, hN (by simp), rfl⟩) h1]
          exact ih (ls ++ [l]) b1 (by simpa using hf) (nextStage_sound h0 h1) (fun _ => hN (by simp)) h
      rw [key rest [l0, l1] b1 hf hs hN2 hb]

/-! ## The best candidate -/

theorem rsPickBest_eq {g : Bool} {b : Best} (h : ∀ e ∈ b, e.2.2.1 < 2 ^ 31 - 1) : rsPickBest g b = pickBest g b := by
  unfold rsPickBest pickBest
  have key : ∀ (es : List (Char × (Str × Int × List (Nat × Nat)))) (a a' : Option (Str × Int × List (Nat × Nat)) × Int),
      (∀ e ∈ es, e.2.2.1 < 2 ^ 31 - 1) → (a = a' ∨ a = (none, 2 ^ 31 - 1) ∧ a' = (none, 10 ^ 100)) →
      (es.foldl (fun (acc : Option (Str × Int × List (Nat × Nat)) × Int) e =>
        if ((rsIsVowel e.1 && !g) || (rsIsConsonant e.1 && g)) && e.2.2.1 < acc.2 then (some e.2, e.2.2.1) else acc) a).1 =
      (es.foldl (fun (acc : Option (Str × Int × List (Nat × Nat)) × Int) e =>
        if (isVowel e.1 && !g) || (isConsonant e.1 && g) then if e.2.2.1 < acc.2 then (some e.2, e.2.2.1) else acc else acc) a').1 := by
    intro es
    induction es with
    | nil =>
      intro a a' _ h
      rcases h with rfl | ⟨rfl, rfl⟩ <;> rfl
    | cons e es ih =>
      intro a a' he h
      rw [List.foldl_cons, List.foldl_cons]
      apply ih _ _ fun e h => he e (List.mem_cons_of_mem _ h)
      have hs := he e (List.mem_cons_self ..)
      simp only [rsIsVowel_eq, rsIsConsonant_eq, Bool.and_eq_true, decide_eq_true_eq]
      by_cases hc : (isVowel e.1 && !g || isConsonant e.1 && g) = true
      · rw [if_pos hc]
        rcases h with rfl | ⟨rfl, rfl⟩
        · left
          by_cases hl : e.2.2.1 < a.2
          · rw [if_pos ⟨hc, hl⟩, if_pos hl]
          · rw [if_neg fun h => hl h.2, if_neg hl]
        · left
          rw [if_pos ⟨hc, hs⟩, if_pos (by show e.2.2.1 < 10 ^ 100; omega)]
      · rw [if_neg hc, if_neg fun h => hc h.1]
        exact h
  exact key _ _ _ (fun e he => h _ (mem_bucket.1 he)) (.inr ⟨rfl, rfl⟩)

theorem score_le (w : Str) : score w ≤ 1100 * w.length := by
  have h := (List.count_le_length : List.count 'y' w ≤ w.length)
  unfold score countChar
  simp only
  omega

theorem tiebreak_nonneg (w : Str) : 0 ≤ tiebreak w := by
  unfold tiebreak
  split <;> decide

theorem hyphen_length {h : Str} (hh : h ∈ [[], s%"y", s%"'y", s%"n", s%"r"]) : h.length ≤ 2 := by
  simp only [List.mem_cons, List.not_mem_nil, or_false] at hh
  rcases hh with rfl | rfl | rfl | rfl | rfl <;> decide

theorem built_score {o : CombineOpts} {N : Nat} {rs : List RafsiOpt} {c : Cand} (h : Built o N rs c) :
    (∀ r ∈ rs, RsForm r.1) → c.score ≤ 9900 * rs.length := by
  induction h with
  | @two r0 r1 _ h =>
    intro hf
    obtain ⟨_, _, hy, _, _, _, _, _, _, _, _, hh, _, _, _, es, _, _⟩ := combine_some h
    have h0 := (hf r0 (by simp)).length
    have h1 := (hf r1 (by simp)).length
    have s0 := score_le r0.1
    have s1 := score_le r1.1
    have s2 := score_le hy
    have ht := tiebreak_nonneg (r0.1 ++ hy ++ r1.1)
    have hl := hyphen_length (chooseHyphen_mem hh)
    rw [es]
    simp only [List.length_cons, List.length_nil]
    omega
  | @more rs r c0 _ _ h ih =>
    intro hf
    obtain ⟨_, _, hy, _, _, _, _, _, _, _, _, hh, _, _, _, es, _, _⟩ := combine_some h
    have hi := ih fun r hr => hf r (by simp [hr])
    have h1 := (hf r (by simp)).length
    have s1 := score_le r.1
    have s2 := score_le hy
    have ht := tiebreak_nonneg (c0.lujvo ++ hy ++ r.1)
    have hl := hyphen_length (chooseHyphen_mem hh)
    rw [es]
    simp only [List.length_append, List.length_cons, List.length_nil] at *
    omega

theorem rs_searched {o : CombineOpts} {g : Bool} {ll : List (List RafsiOpt)} {b : Best} (hf : ∀ l ∈ ll, ∀ r ∈ l, RsForm r.1) (h2 : 2 ≤ ll.length)
    (hmax : ll.length < 200000) (hb : searchStages o ll = .ok b) : rsSearchStages o ll = .ok b ∧ rsPickBest g b = pickBest g b := by
  refine ⟨rs_searchStages hf h2 hb, rsPickBest_eq fun e he => ?_⟩
  obtain ⟨rs, c, hp, hbt, l, hl, rfl⟩ := searchStages_sound hb e he
  have hlen := picks_length hp
  have := built_score hbt fun r hr => by
    obtain ⟨l, hl, hrl⟩ := picks_mem hp r hr
    exact hf l hl r hrl
  show c.score < 2 ^ 31 - 1
  omega

end Jvotci
