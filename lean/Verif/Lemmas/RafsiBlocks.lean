import Verif.Lemmas.Blocks

/-!
# Helper lemmas: rafsi without y sound right
-/

namespace Jvotci

open Spec

theorem nucleus_one {a : Char} (h : Vowel a) : Nucleus [a] := by
  have key : ∀ a ∈ s%"aeiou", Nucleus [a] := by decide
  refine key a ?_
  unfold Vowel at h
  exact h

theorem nucleus_diph {a b : Char} (h : [a, b] ∈ [s%"ai", s%"ei", s%"oi", s%"au"]) : Nucleus [a, b] := by
  simp at h
  rcases h with ⟨rfl, rfl⟩ | ⟨rfl, rfl⟩ | ⟨rfl, rfl⟩ | ⟨rfl, rfl⟩ <;> decide

/-- CVV, CV'V and CCV. -/
theorem rafsi_open {mz : Bool} {x : Str} {l : Char} (h : Rafsi mz x) (hd : Diph x) (hs : Short x) (hl : x.getLast? = some l) (hv : Vowel l) :
    ∃ k n, x = k ++ n ∧ Head k ∧ Nuclei n := by
  have hno : ∀ {a : Char}, Consonant a → some a = some l → False := by
    intro a ha e
    cases e
    exact vowel_not_consonant hv ha
  cases h with
  | @cvv a b c ha hb hc => exact ⟨[a], [b, c], rfl, .inl ⟨a, rfl, ha⟩, .one (nucleus_diph (hd a b c rfl hb hc))⟩
  | @cvhv a b c ha hb hc => exact ⟨[a], [b] ++ '\'' :: [c], rfl, .inl ⟨a, rfl, ha⟩, .more (nucleus_one hb) (.one (nucleus_one hc))⟩
  | cvc ha hb hc => exact (hno hc hl).elim
  | @ccv a b c hi hc => exact ⟨[a, b], [c], rfl, .inr ⟨a, b, rfl, hi⟩, .one (nucleus_one hc)⟩
  | cvcc ha hb hp => exact (hno hp.2.1 hl).elim
  | ccvc hi hc hd' => exact (hno hd' hl).elim
  | gismu hg =>
    exfalso
    cases hg <;> rcases hs with hs | ⟨hs, -⟩ <;> simp at hs

/-- CVC. -/
theorem rafsi_closed {mz : Bool} {x : Str} {l : Char} (h : Rafsi mz x) (hs : Short x) (hl : x.getLast? = some l) (hc : Consonant l) :
    ∃ k n, x = k ++ (n ++ [l]) ∧ Head k ∧ Nuclei n := by
  have hno : ∀ {a : Char}, Vowel a → some a = some l → False := by
    intro a ha e
    cases e
    exact vowel_not_consonant ha hc
  have ha' : ¬ Consonant '\'' := by decide
  have hv' : ¬ Vowel '\'' := by decide
  cases h with
  | cvv ha hb hc => exact (hno hc hl).elim
  | cvhv ha hb hc => exact (hno hc hl).elim
  | @cvc a b c ha hb hc => cases hl; exact ⟨[a], [b], rfl, .inl ⟨a, rfl, ha⟩, .one (nucleus_one hb)⟩
  | ccv hi hc => exact (hno hc hl).elim
  | cvcc ha hb hp =>
    exfalso
    rcases hs with hs | ⟨-, hs⟩
    · simp at hs
    · simp at hs
      rcases hs with rfl | rfl | rfl | rfl
      · exact ha' ha
      · exact hv' hb
      · exact ha' hp.1
      · exact ha' hp.2.1
  | ccvc hi hc hd =>
    exfalso
    have hi := initial_cons hi
    rcases hs with hs | ⟨-, hs⟩
    · simp at hs
    · simp at hs
      rcases hs with rfl | rfl | rfl | rfl
      · exact ha' ((isConsonant_iff _).1 hi.1)
      · exact ha' ((isConsonant_iff _).1 hi.2)
      · exact hv' hc
      · exact ha' hd
  | gismu hg =>
    exfalso
    cases hg <;> rcases hs with hs | ⟨hs, -⟩ <;> simp at hs

theorem vowelRafsi_short {x : Str} (h : VowelRafsi x) : Short x ∧ ∃ l, x.getLast? = some l ∧ Vowel l := by
  obtain ⟨c, a, b, ha, hb, rfl | rfl⟩ := h
  · exact ⟨.inl rfl, b, rfl, hb⟩
  · exact ⟨.inr ⟨rfl, by simp⟩, b, rfl, hb⟩

/-- A rafsi at the end of a word. -/
theorem rafsi_blk {mz : Bool} {x : Str} {l : Char} (h : Rafsi mz x) (hd : Diph x) (hl : x.getLast? = some l) (hv : Vowel l)
    (hmz : ∀ e, Consonant e → ¬ Occurs ['m', 'z', e] x) : Blk mz x := by
  by_cases hs : Short x
  · obtain ⟨k, n, rfl, hk, hn⟩ := rafsi_open h hd hs hl hv
    exact ⟨k, n, [], by simp, hk, hn, mid_nil⟩
  · have hno : ∀ {a : Char}, Consonant a → some a = some l → False := by
      intro a ha e
      cases e
      exact vowel_not_consonant hv ha
    cases h with
    | cvv => exact absurd (.inl rfl) hs
    | cvhv => exact absurd (.inr ⟨rfl, by simp⟩) hs
    | cvc => exact absurd (.inl rfl) hs
    | ccv => exact absurd (.inl rfl) hs
    | cvcc ha hb hp => exact (hno hp.2.1 hl).elim
    | ccvc hi hc hd' => exact (hno hd' hl).elim
    | gismu hg =>
      cases hg with
      | @cvccv a b c d e ha hb hp he =>
        refine ⟨[a], [b], [c, d, e], rfl, .inl ⟨a, rfl, ha⟩, .one (nucleus_one hb), ?_⟩
        refine mid_closed (z := [d, e]) hp.1 ⟨[d], [e], [], rfl, .inl ⟨d, rfl, hp.2.1⟩, .one (nucleus_one he), mid_nil⟩ ?_ ?_ ?_
        · intro x hx; cases hx; exact hp
        · intro x y t e' ht
          cases e'
          have : ∀ t ∈ bannedTriples, ∃ e ∈ t[2]?, Consonant e := by decide
          obtain ⟨e', he', hc'⟩ := this _ ht
          cases he'
          exact vowel_not_consonant he hc'
        · intro x t hx e'
          cases e'
          exact vowel_not_consonant he hx
      | @ccvcv a b c d e hi hc hd' he =>
        exact ⟨[a, b], [c], [d, e], rfl, .inr ⟨a, b, rfl, hi⟩, .one (nucleus_one hc),
          blk_mid ⟨[d], [e], [], rfl, .inl ⟨d, rfl, hd'⟩, .one (nucleus_one he), mid_nil⟩⟩

/-- After r and n. -/
theorem link_after_rn {y : YHyphens} {mz : Bool} {h : Char} {q : Str} (hh : h = 'r' ∨ h = 'n') (hl : Link y mz [h] q) :
    Rafsi mz q ∧ (∀ d, q.head? = some d → PermissiblePair mz h d) ∧ (h ≠ 'n' ∨ q.head? = some 'r') := by
  generalize hr : [h] = r at hl
  have hlen : ¬ Rafsi mz r := by
    intro h
    subst hr
    have := (rafsi_length h).1
    simp at this
  cases hl with
  | rafsi hr' => exact absurd hr' hlen
  | y hr' => exact absurd hr' hlen
  | apostropheY _ hr' => exact absurd hr' hlen
  | rOrN _ hr' => exact absurd hr' hlen
  | afterY h' =>
    subst hr
    simp at h'
    subst h'
    exfalso
    rcases hh with h | h <;> revert h <;> decide
  | afterR h3 hn3 =>
    cases hr
    refine ⟨h3, ?_, .inl (by decide)⟩
    intro d hd
    have hdr : d ≠ 'r' := by rintro rfl; exact hn3 hd
    obtain ⟨a3, t3, rfl, ha3⟩ := rafsi_first h3
    cases hd
    have key : ∀ d ∈ ['b', 'c', 'd', 'f', 'g', 'j', 'k', 'l', 'm', 'n', 'p', 'r', 's', 't', 'v', 'x', 'z'], d ≠ 'r' → PermissiblePair false 'r' d := by
      decide
    obtain ⟨h1, h2, h3, h4, h5, h6, h7, h8⟩ := key d ((isConsonant_iff d).1 ha3) hdr
    exact ⟨h1, h2, h3, h4, h5, h6, h7, fun e => absurd (h8 e) (by simp)⟩
  | afterN h3 hn3 =>
    cases hr
    refine ⟨h3, ?_, .inr hn3⟩
    intro d hd
    rw [hn3] at hd
    cases hd
    cases mz <;> decide

/-- Rafsi joined at once or with r and n. -/
theorem pieces_blk {y : YHyphens} {mz : Bool} : ∀ {q : Str} {qs : List Str}, Links y mz (q :: qs) → Rafsi mz q → (∀ p ∈ q :: qs, Diph p) →
    (∃ p, (q :: qs).getLast? = some p ∧ Rafsi mz p) → (∃ l, (q :: qs).flatten.getLast? = some l ∧ Vowel l) → 'y' ∉ (q :: qs).flatten →
    (∀ e, Consonant e → ¬ Occurs ['m', 'z', e] (q :: qs).flatten) → Blk mz (q :: qs).flatten
  | q, [], _, hq, hd, _, ⟨l, hl, hv⟩, _, hmz => by
    simp only [List.flatten_cons, List.flatten_nil, List.append_nil] at hl hmz ⊢
    exact rafsi_blk hq (hd q (by simp)) hl hv hmz
  | q, q2 :: qs, hL, hq, hd, hlast, hl, hy, hmz => by
    have hlk := hL [] q q2 qs rfl
    have hdq := hd q (by simp)
    have hsub : ∀ {a z : Str}, (∀ e, Consonant e → ¬ Occurs ['m', 'z', e] (a ++ z)) → ∀ e, Consonant e → ¬ Occurs ['m', 'z', e] z := by
      rintro a z h e he ⟨u, v, rfl⟩
      exact h e he ⟨a ++ u, v, by simp⟩
    -- the last letter is that of the rest
    have hends : ∀ {a z : Str}, z ≠ [] → (∃ l, (a ++ z).getLast? = some l ∧ Vowel l) → ∃ l, z.getLast? = some l ∧ Vowel l := by
      rintro a z hz ⟨l, hl, hv⟩
      rw [getLast?_append_ne _ hz] at hl
      exact ⟨l, hl, hv⟩
    have hclosed : ∀ {k n : Str} {c : Char} {z : Str}, q = k ++ (n ++ [c]) ∨ q ++ [c] = k ++ (n ++ [c]) → Head k → Nuclei n → Consonant c → Blk mz z →
        (∀ d, z.head? = some d → PermissiblePair mz c d) → (∀ d e t, z = d :: e :: t → [c, d, e] ∉ bannedTriples) →
        (∀ e, Consonant e → ¬ Occurs ['m', 'z', e] (k ++ (n ++ [c]) ++ z)) → Blk mz (k ++ (n ++ [c]) ++ z) := by
      intro k n c z _ hk hn hc hz hp ht hmz
      refine ⟨k, n, c :: z, by simp, hk, hn, mid_closed hc hz hp ht ?_⟩
      intro e t he e'
      refine hmz e he ⟨k ++ n, t, ?_⟩
      have : k ++ (n ++ [c]) ++ z = k ++ n ++ (c :: z) := by simp
      rw [this, e']
      simp
    have hrn : ∀ {h : Char} {q3 : Str} {qs' : List Str}, q2 = [h] → qs = q3 :: qs' → Rafsi mz q3 → Consonant h → VowelRafsi q →
        (∀ d, q3.head? = some d → PermissiblePair mz h d) → (h ≠ 'n' ∨ q3.head? = some 'r') → Blk mz (q :: q2 :: qs).flatten := by
      rintro h q3 qs' rfl rfl hq3 hh hvq hp hn'
      obtain ⟨hs, l, hl', hlv⟩ := vowelRafsi_short hvq
      obtain ⟨k, n, rfl, hk, hn⟩ := rafsi_open hq hdq hs hl' hlv
      have hne : (q3 :: qs').flatten ≠ [] := by
        have := (rafsi_length hq3).1
        intro e
        have := congrArg List.length e
        simp at this
        simp [this] at *
      obtain ⟨a3, t3, e3, -⟩ := rafsi_first hq3
      have hz : Blk mz (q3 :: qs').flatten := by
        refine pieces_blk (links_tail (links_tail hL)) hq3 (fun p hp => hd p (by simp at hp ⊢; grind)) ?_ ?_ ?_ ?_
        · simpa using hlast
        · exact hends (a := k ++ n ++ [h]) hne (by simpa using hl)
        · intro h'; exact hy (by simp at h' ⊢; grind)
        · exact hsub (a := k ++ n ++ [h]) (by simpa using hmz)
      have hhead : (q3 :: qs').flatten.head? = q3.head? := by rw [e3]; rfl
      have := hclosed (k := k) (n := n) (c := h) (z := (q3 :: qs').flatten) (.inr (by simp)) hk hn hh hz (by rw [hhead]; exact hp) ?_ (by simpa using hmz)
      · simpa using this
      · intro d e t e' ht
        have h1 : ∀ t ∈ bannedTriples, t[0]? = some 'n' ∧ t[1]? ≠ some 'r' := by decide
        obtain ⟨h1, h2⟩ := h1 _ ht
        simp at h1 h2
        rcases hn' with hn' | hn'
        · exact hn' h1
        · rw [← hhead, e'] at hn'
          cases hn'
          exact h2 rfl
    have hnext : ∀ {q3 : Str} {w : List Str}, qs = q3 :: w → Link y mz q2 q3 := by
      rintro q3 w rfl
      exact hL [q] q2 q3 w rfl
    have hrnlast : q2.length = 1 → ∃ q3 w, qs = q3 :: w := by
      intro h1
      cases qs with
      | nil =>
        obtain ⟨p, hp, hpr⟩ := hlast
        simp at hp
        subst hp
        have := (rafsi_length hpr).1
        omega
      | cons a w => exact ⟨a, w, rfl⟩
    cases hlk with
    | rafsi _ hq2 hs hp ht =>
      have hne : (q2 :: qs).flatten ≠ [] := by
        have := (rafsi_length hq2).1
        intro e
        have := congrArg List.length e
        simp at this
        simp [this] at *
      have hz : Blk mz (q2 :: qs).flatten := by
        refine pieces_blk (links_tail hL) hq2 (fun p hp => hd p (List.mem_cons_of_mem _ hp)) ?_ ?_ ?_ ?_
        · simpa using hlast
        · exact hends (a := q) hne (by simpa using hl)
        · intro h'; exact hy (by rw [List.flatten_cons]; exact List.mem_append_right _ h')
        · exact hsub (a := q) (by simpa using hmz)
      obtain ⟨l, hl', hlv⟩ := rafsi_lastLetter hq
      obtain ⟨a2, t2, e2, -⟩ := rafsi_first hq2
      have hhead : (q2 :: qs).flatten.head? = q2.head? := by rw [e2]; rfl
      rcases hlv with hlv | hlv
      · obtain ⟨k, n, rfl, hk, hn⟩ := rafsi_open hq hdq hs hl' hlv
        exact ⟨k, n, (q2 :: qs).flatten, by simp, hk, hn, blk_mid hz⟩
      · obtain ⟨k, n, e, hk, hn⟩ := rafsi_closed hq hs hl' hlv
        have := hclosed (k := k) (n := n) (c := l) (z := (q2 :: qs).flatten) (.inl e) hk hn hlv hz ?_ ?_ (by rw [← e]; simpa using hmz)
        · rw [← e] at this
          simpa using this
        · intro d hd'
          rw [hhead] at hd'
          exact hp l d hl' hd' hlv
        · intro d e' t he
          have h3 := (rafsi_length hq2).1
          match q2, h3 with
          | a :: b :: q2', _ =>
            cases he
            exact ht l d e' q2' hl' rfl
    | y => exact absurd (by simp) hy
    | apostropheY => exact absurd (by simp) hy
    | rOrN _ _ hv hh =>
      simp at hh
      obtain ⟨q3, w, e⟩ := hrnlast (by rcases hh with rfl | rfl <;> rfl)
      have hlk3 := hnext e
      rcases hh with rfl | rfl
      · obtain ⟨h1, h2, h3⟩ := link_after_rn (.inl rfl) hlk3
        exact hrn rfl e h1 (by decide) hv h2 h3
      · obtain ⟨h1, h2, h3⟩ := link_after_rn (.inr rfl) hlk3
        exact hrn rfl e h1 (by decide) hv h2 h3
    | afterY h =>
      have := (rafsi_length hq).1
      simp at h
      rcases h with rfl | rfl <;> simp at this
    | afterR => have := (rafsi_length hq).1; simp at this
    | afterN => have := (rafsi_length hq).1; simp at this

end Jvotci
