import Verif.Lemmas.Segregate

/-!
# C46: no brivla is a cmavo and a brivla

In running speech words are not separated by pauses. A listener who hears `CV…` must know whether the first syllables
are words of their own or the beginning of a longer word. So no brivla may consist of something without two adjacent
consonants (which could be cmavo) and another brivla.
-/

namespace Jvotci

open Spec

/-- **C46**. Let `w` be a brivla without y, and cut something off its beginning that ends in a vowel and has no two
consonants side by side. If what is left begins with a consonant or on-glide, it is not a brivla: the two cannot be
heard as cmavo and brivla. (Words that begin with another vowel need a pause before them.)

Partial: words without y, all options but `allow_mz`; both restrictions are needed (see `C46_mz_false`; words with y: `C46_y_false`). -/
theorem C46_self_segregation_partial {s : Settings} {w u t : Str} (hlen : w.length < 10 ^ 94) (hm : s.allowMz = false)
    (h : isBrivla .linked s w = .ok true) (hy : 'y' ∉ reading w) (e : reading w = u ++ t)
    (hu : ∃ a, u.getLast? = some a ∧ Vowel a) (ht : ConsonantInitial t ∨ Onglide t)
    (ha : ∀ a b, Adjacent u a b → ¬ (Consonant a ∧ Consonant b)) : isBrivla .linked s t = .ok false := by
  have h1 := reading_short w
  have hlen' : (reading w).length < 10 ^ 95 := by
    have : (10 : Nat) ^ 95 = 10 * 10 ^ 94 := by rw [Nat.pow_succ, Nat.mul_comm]
    omega
  exact brivla_left hm hlen' hy h e hu ht ha

/-- The same said of the two parts: writing something without two adjacent consonants before a brivla, without y, does
not make a brivla of it. -/
theorem C46_cmavo_brivla_partial {s : Settings} {u t : Str} (hlen : (u ++ t).length < 10 ^ 94) (hm : s.allowMz = false)
    (hl : ∀ d ∈ u ++ t, Vowel d ∨ Consonant d ∨ d = '\'') (hu : ∃ a, u.getLast? = some a ∧ Vowel a)
    (ht : ConsonantInitial t ∨ Onglide t) (ha : ∀ a b, Adjacent u a b → ¬ (Consonant a ∧ Consonant b))
    (h : isBrivla .linked s t = .ok true) : isBrivla .linked s (u ++ t) = .ok false := by
  have hr := reading_letters hl
  have hy : 'y' ∉ u ++ t := by
    intro hy
    rcases hl _ hy with h | h | h <;> revert h <;> decide
  have hne : u ++ t ≠ [] := by
    rintro e
    simp at e
    rw [e.1] at hu
    obtain ⟨a, ha, -⟩ := hu
    cases ha
  cases hb : isBrivla .linked s (u ++ t) with
  | ok r =>
    cases r with
    | false => rfl
    | true =>
      have := C46_self_segregation_partial hlen hm hb (by rw [hr]; exact hy) hr hu ht ha
      rw [h] at this
      cases this
  | error er =>
    have hc := clean_normal _ s (u ++ t) (Nat.le_refl _) hne hy (fun d hd => (readChar_letter (hl d hd)).1)
    unfold isBrivla at hb
    cases ha : analyseBrivla .linked s (u ++ t) with
    | ok r => rw [ha] at hb; cases hb
    | error e2 =>
      have := hc _ ha
      simp at this
      subst this
      rw [ha] at hb
      cases hb

/-- Lujvo, with any options and with y anywhere but in the part cut off: what is left is neither a gismu nor a lujvo nor
a zi'evla. -/
theorem C46_lujvo_partial {s : Settings} {w u t : Str} {ps : List Str} (hlen : w.length < 10 ^ 94)
    (h : analyseBrivla .linked s w = .ok (.lujvo, ps)) (e : reading w = u ++ t) (hy : 'y' ∉ u)
    (hu : ∃ a, u.getLast? = some a ∧ Vowel a) (ht : ConsonantInitial t ∨ Onglide t)
    (ha : ∀ a b, Adjacent u a b → ¬ (Consonant a ∧ Consonant b)) :
    ∀ ty ∈ [BType.gismu, .lujvo, .zihevla], ∀ qs, analyseBrivla .linked s t ≠ .ok (ty, qs) := by
  intro ty hty qs htt
  have h1 := reading_short w
  have hlen' : (reading w).length < 10 ^ 95 := by
    have : (10 : Nat) ^ 95 = 10 * 10 ^ 94 := by rw [Nat.pow_succ, Nat.mul_comm]
    omega
  obtain ⟨h2, h3⟩ := C41_only_lujvo h
  have hn := lujvo_noWord h3 (h2.trans e) hu hy ht ha
  have hr : reading t = t := by
    have hst : ∀ d ∈ t, readChar d = [d] ∧ d ≠ '.' := by
      intro d hd
      rcases lujvo_letters h3 d (by rw [h2, e]; simp [hd]) with h | h | h | rfl
      · exact readChar_letter (.inl h)
      · exact readChar_letter (.inr (.inl h))
      · exact readChar_letter (.inr (.inr h))
      · exact ⟨by decide, by decide⟩
    unfold reading
    split
    · exact absurd rfl (hst '.' (by simp)).2
    · exact flatMap_readChar_stable fun d hd => (hst d hd).1
  cases ty with
  | extendedLujvo => simp at hty
  | cmevla => simp at hty
  | gismu =>
    have := (C03_gismu_iff.1 htt).2.1
    rw [hr] at this
    exact absurd this hn.gismu
  | lujvo =>
    have := C41_only_lujvo htt
    rw [hr] at this
    exact absurd this.1 (hn.lujvo _ this.2)
  | zihevla =>
    have := (zihevla_iff (by rw [hr]; rw [e] at hlen'; simp at hlen'; omega)).1 htt
    rw [hr] at this
    exact absurd this.2.2.2.2.2 (hn.zihevla this.2.1)

/-- With y, C46 is false: `bastankarybroda` could be heard as `ba stankarybroda`. The first is cut into the
rafsi bas-tan-kar-y-broda, the second into stankar-y-broda. The slinku'i test of the second asks whether `to` before it
makes a LUJVO, which it does not, since the y is not needed there: it makes an EXTENDED_LUJVO. The tosmabru test of the
first only asks whether `stankar` is made of rafsi. -/
theorem C46_y_false : isBrivla .linked {} s%"bastankarybroda" = .ok true ∧ isBrivla .linked {} s%"stankarybroda" = .ok true := by
  decide +kernel

/-- With `allow_mz`, C46 is false: the tails of a zi'evla are examined without that option. -/
theorem C46_mz_false : isBrivla .linked { allowMz := true } s%"obamzu" = .ok true ∧
    isBrivla .linked { allowMz := true } s%"bamzu" = .ok true := by decide +kernel

-- the hypotheses are met: by a zi'evla, by a lujvo that would be something else without "to", and by one with y
example : isBrivla .linked {} s%"djrspageti" = .ok false :=
  C46_self_segregation_partial (w := s%"cidjrspageti") (u := s%"ci") (by decide) rfl (by decide +kernel) (by decide) (by decide)
    ⟨'i', by decide⟩ (.inl (by decide)) (by
      intro a b ⟨x, y, e⟩
      match x, e with
      | [], e => cases e; decide
      | [x], e => cases e
      | x :: x' :: xs, e => simp at e)
example : isBrivla .linked {} s%"slinku'i" = .ok false :=
  C46_self_segregation_partial (w := s%"TOslinku'i") (u := s%"to") (by decide) rfl (by decide +kernel) (by decide) (by decide)
    ⟨'o', by decide⟩ (.inl (by decide)) (by
      intro a b ⟨x, y, e⟩
      match x, e with
      | [], e => cases e; decide
      | [x], e => cases e
      | x :: x' :: xs, e => simp at e)
example : isBrivla .linked {} s%"obroda" = .ok false :=
  C46_cmavo_brivla_partial (u := s%"o") (t := s%"broda") (by decide) rfl (by decide) ⟨'o', by decide⟩ (.inl (by decide)) (by
      intro a b ⟨x, y, e⟩
      match x, e with
      | [], e => cases e
      | x :: xs, e => simp at e) (by decide +kernel)
example : ∀ qs, analyseBrivla .linked {} s%"stankaryrango" ≠ .ok (.lujvo, qs) :=
  C46_lujvo_partial (w := s%"bastankaryrango") (u := s%"ba") (ps := [s%"bas", s%"tan", s%"kar", s%"y", s%"rango"]) (by decide)
    (by decide +kernel) (by decide) (by decide) ⟨'a', by decide⟩ (.inl (by decide)) (by
      intro a b ⟨x, y, e⟩
      match x, e with
      | [], e => cases e; decide
      | [x], e => cases e
      | x :: x' :: xs, e => simp at e) _ (by decide)
example : analyseBrivla .linked {} s%"bastankaryrango" = .ok (.lujvo, [s%"bas", s%"tan", s%"kar", s%"y", s%"rango"]) ∧
    analyseBrivla .linked {} s%"stankaryrango" = .error .notBrivla ∧
    analyseBrivla .linked {} s%"stankari" = .ok (.zihevla, [s%"stankari"]) := by decide +kernel

end Jvotci
