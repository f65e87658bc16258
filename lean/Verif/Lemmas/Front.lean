import Verif.Lemmas.ExtCmevla

/-!
# Helper lemmas: the consonant and vowel before a slinku'i do not matter
-/

namespace Jvotci

open Spec

/-- The first rafsi with another consonant and vowel before its consonants. -/
inductive Fronts (x : Str) : Prop
  | one {c} : Consonant c → x = [c] → Fronts x
  | two {c d} : Consonant c → x = [c, d] → Fronts x

theorem fronts_rafsi {mz : Bool} {a v a' v' : Char} {x : Str} (hx : Fronts x) (ha : Consonant a') (hv : Vowel v')
    (h : Rafsi mz (a :: v :: x)) (hv0 : Vowel v) : Rafsi mz (a' :: v' :: x) := by
  have hvc : ¬ Consonant v := fun h => (vowel_not_consonant hv0) h
  rcases hx with ⟨hc, rfl⟩ | ⟨hc, rfl⟩
  · exact .cvc ha hv hc
  · rename_i c d
    generalize e : a :: v :: [c, d] = p at h
    cases h with
    | cvv => cases e
    | cvhv => cases e; exact absurd hc (by decide)
    | cvc => cases e
    | ccv => cases e
    | cvcc _ _ hp => cases e; exact .cvcc ha hv hp
    | ccvc hp => cases e; exact absurd (initial_consonants hp).2 hvc
    | gismu hg => subst e; cases hg

theorem fronts_short {a v a' v' : Char} {x : Str} (h : Short (a :: v :: x)) (hne : a ≠ '\'') (hnv : v ≠ '\'')
    : Short (a' :: v' :: x) := by
  rcases h with h | ⟨h, hq⟩
  · exact .inl (by simpa using h)
  · refine .inr ⟨by simpa using h, ?_⟩
    have hq : '\'' ∈ x := by
      rcases List.mem_cons.1 hq with e | hq
      · exact absurd e.symm hne
      · rcases List.mem_cons.1 hq with e | hq
        · exact absurd e.symm hnv
        · exact hq
    exact List.mem_cons_of_mem _ (List.mem_cons_of_mem _ hq)

theorem fronts_last {a v a' v' : Char} {x : Str} (hx : Fronts x) : (a :: v :: x).getLast? = (a' :: v' :: x).getLast? := by
  rcases hx with ⟨-, rfl⟩ | ⟨-, rfl⟩ <;> rfl

theorem fronts_not_vowel {a v : Char} {x : Str} (hx : Fronts x) : ¬ VowelRafsi (a :: v :: x) := by
  rintro ⟨c, a', b', ha, hb, e | e⟩
  · cases e
    rcases hx with ⟨hc, e⟩ | ⟨hc, e⟩
    · cases e; exact vowel_not_consonant hb hc
    · cases e
  · cases e
    rcases hx with ⟨hc, e⟩ | ⟨hc, e⟩
    · cases e
    · cases e; exact absurd hc (by decide)

theorem fronts_not_hyphen {a v : Char} {x : Str} (hx : Fronts x) : ¬ Hyphen (a :: v :: x) := by
  intro h
  rcases hx with ⟨hc, rfl⟩ | ⟨hc, rfl⟩
  · rename_i c
    have : [a, v, c] = s%"'y'" := by
      simp only [Hyphen, List.mem_cons, List.not_mem_nil, or_false] at h
      rcases h with h | h | h | h | h | h <;> first | (exact h) | (simp at h)
    cases this
    exact absurd hc (by decide)
  · simp [Hyphen] at h

theorem fronts_falls {a v a' v' : Char} {x : Str} {r : List Str} (hx : Fronts x) (ha : Consonant a') (hv : Vowel v')
    (h : FallsApart ((a :: v :: x) :: r)) (h1 : Consonant a) (h2 : Vowel v) : FallsApart ((a' :: v' :: x) :: r) := by
  have hp : pattern (a :: v :: x) = s%"CVC" → pattern (a' :: v' :: x) = s%"CVC" := by
    have hav : ¬ Vowel a := fun h => vowel_not_consonant h h1
    have hav' : ¬ Vowel a' := fun h => vowel_not_consonant h ha
    intro h
    simpa [pattern, h1, h2, ha, hv, hav, hav'] using h
  have hm : ∀ q, MeetInitial (a :: v :: x) q → MeetInitial (a' :: v' :: x) q := by
    rintro q ⟨c, d, hc, hd⟩
    exact ⟨c, d, by rw [← hc]; exact (fronts_last hx).symm, hd⟩
  cases h with
  | gismu h1 h2 h3 h4 => exact .gismu (hp h1) (hm _ h2) h3 h4
  | y h1 h2 h3 => exact .y (hp h1) (hm _ h2) h3
  | more h1 h2 h3 => exact .more (hp h1) (hm _ h2) h3

theorem fronts_fit {mz : Bool} {a v a' v' : Char} {x q : Str} (hx : Fronts x) (h : Fit mz (a :: v :: x) q) (h1 : Consonant a) (h2 : Vowel v) :
    Fit mz (a' :: v' :: x) q := by
  obtain ⟨hs, h3, h4⟩ := h
  have hl := fronts_last (a := a) (v := v) (a' := a') (v' := v') hx
  rw [hl] at h3 h4
  exact ⟨fronts_short hs (by rintro rfl; exact absurd h1 (by decide)) (by rintro rfl; exact absurd h2 (by decide)), h3, h4⟩

theorem fronts_link {y : YHyphens} {mz : Bool} {a v a' v' : Char} {x q : Str} (hx : Fronts x) (ha : Consonant a') (hv : Vowel v')
    (h : Link y mz (a :: v :: x) q) (h1 : Consonant a) (h2 : Vowel v) : Link y mz (a' :: v' :: x) q := by
  have hq1 : a ≠ '\'' := by rintro rfl; exact absurd h1 (by decide)
  have hq2 : v ≠ '\'' := by rintro rfl; exact absurd h2 (by decide)
  generalize e : a :: v :: x = p at h
  cases h with
  | rafsi hp hq hs h3 h4 =>
    subst e
    have hl := fronts_last (a := a) (v := v) (a' := a') (v' := v') hx
    rw [hl] at h3 h4
    exact .rafsi (fronts_rafsi hx ha hv hp h2) hq (fronts_short hs hq1 hq2) h3 h4
  | y hp hl => subst e; exact .y (fronts_rafsi hx ha hv hp h2) (by simpa using hl)
  | apostropheY hy hp hs => subst e; exact .apostropheY hy (fronts_rafsi hx ha hv hp h2) (fronts_short hs hq1 hq2)
  | rOrN _ _ hvr => subst e; exact absurd hvr (fronts_not_vowel hx)
  | afterY hh =>
    subst e
    exact absurd (by revert hh; simp only [Hyphen, List.mem_cons]; intro hh; rcases hh with h | h | h <;> simp_all) (fronts_not_hyphen (a := a) (v := v) hx)
  | afterR => cases e
  | afterN => cases e

/-- Lujvo stay lujvo if the first consonant and vowel are replaced, provided a consonant follows. -/
theorem fronts_lujvo {s : Settings} {a v a' v' c : Char} {w : Str} {ps : List Str} (h : LujvoPieces s ps) (e : ps.flatten = a :: v :: c :: w)
    (hc : Consonant c) (h1 : Consonant a) (h2 : Vowel v) (ha : Consonant a') (hv : Vowel v') :
    ∃ x r, ps = (a :: v :: x) :: r ∧ Fronts x ∧ LujvoPieces s ((a' :: v' :: x) :: r) := by
  have hvv : ∀ {z : Char}, Vowel z → Consonant z → False := fun h h' => vowel_not_consonant h h'
  obtain ⟨p, hp, hr⟩ := h.reading.first
  match ps, hp, h, e with
  | [q], _, h, _ => exact absurd h.two (by simp)
  | q :: q2 :: r, hp, h, e =>
    have : q = p := by simpa using hp
    subst this
    have hlink := h.reading.links [] q q2 r rfl
    rw [List.flatten_cons] at e
    generalize (q2 :: r).flatten = t at e
    obtain ⟨x, rfl, hx⟩ : ∃ x, q = a :: v :: x ∧ Fronts x := by
      cases hr with
      | cvv _ _ hz => cases e; exact (hvv hz hc).elim
      | cvhv => cases e; exact absurd hc (by decide)
      | cvc => cases e; exact ⟨_, rfl, .one hc rfl⟩
      | ccv hi => cases e; exact (hvv h2 (initial_consonants hi).2).elim
      | cvcc => cases e; exact ⟨_, rfl, .two hc rfl⟩
      | ccvc hi => cases e; exact (hvv h2 (initial_consonants hi).2).elim
      | gismu hg =>
        exfalso
        have h5 : q.length = 5 := by cases hg <;> rfl
        have hns : ¬ Short q := by
          rintro (h | ⟨h, -⟩) <;> omega
        cases hlink with
        | rafsi _ _ hs => exact hns hs
        | y _ hl => omega
        | apostropheY _ _ hs => exact hns hs
        | rOrN _ _ hvr => obtain ⟨_, _, _, -, -, rfl | rfl⟩ := hvr <;> simp at h5
        | afterY hh => revert h5; revert hh; simp only [List.mem_cons, List.not_mem_nil, or_false]; rintro (rfl | rfl) <;> simp
        | afterR => simp at h5
        | afterN => simp at h5
    refine ⟨x, q2 :: r, rfl, hx, ⟨⟨?_, ?_, ?_, ?_, ?_⟩, ?_, ?_, ?_, ?_, ?_, ?_, ?_⟩⟩
    · exact ⟨_, rfl, fronts_rafsi hx ha hv hr h2⟩
    · obtain ⟨l, hl, hlr⟩ := h.reading.last
      exact ⟨l, by simpa using hl, hlr⟩
    · intro p hp c0 a0 b0 e0 ha0 hb0
      rcases List.mem_cons.1 hp with rfl | hp
      · exact absurd ⟨c0, a0, b0, ha0, hb0, .inl e0⟩ (fronts_not_vowel (a := a') (v := v') hx)
      · exact h.reading.diphthongs p (List.mem_cons_of_mem _ hp) c0 a0 b0 e0 ha0 hb0
    · intro u p0 q0 v0 e0
      cases u with
      | nil => cases e0; exact fronts_link hx ha hv hlink h1 h2
      | cons u0 u =>
        injection e0 with e1 e2
        exact h.reading.links ((a :: v :: x) :: u) p0 q0 v0 (by rw [e2]; rfl)
    · intro a0 b0 c0 v0 hb e0
      cases e0
      exact hvv hv hb
    · simp
    · obtain ⟨z, hz, hzv⟩ := h.vowel
      refine ⟨z, ?_, hzv⟩
      rw [List.flatten_cons, List.getLast?_append, fronts_last (a := a) (v := v) (a' := a') (v' := v') hx] at hz
      rw [List.flatten_cons, List.getLast?_append]
      exact hz
    · intro p0 q0 v0 e0 hvr
      cases e0
      exact absurd hvr (fronts_not_vowel hx)
    · intro u p0 q0 v0 e0
      cases u with
      | nil =>
        injection e0 with e1 e2
        subst e1
        rw [e2] at h
        rcases h.y [] _ q0 v0 rfl with hn | ⟨-, hf⟩
        · exact .inl fun hf => hn (fronts_fit hx hf ha hv)
        · exact .inr ⟨rfl, fronts_falls hx ha hv hf h1 h2⟩
      | cons u0 u =>
        injection e0 with e1 e2
        rcases h.y ((a :: v :: x) :: u) p0 q0 v0 (by rw [e2]; rfl) with hn | ⟨hn, -⟩
        · exact .inl hn
        · cases hn
    · intro u p0 q0 v0 e0
      cases u with
      | nil =>
        injection e0 with e1 e2
        rw [e2] at h
        exact absurd (h.apostropheY [] _ q0 v0 rfl).2.2.1 (fronts_not_vowel hx)
      | cons u0 u =>
        injection e0 with e1 e2
        have := (h.apostropheY ((a :: v :: x) :: u) p0 q0 v0 (by rw [e2]; rfl)).2.1
        cases this
    · exact fun hf => h.whole (fronts_falls hx h1 h2 hf ha hv)
    · intro _
      exact ⟨_, List.mem_cons_self .., .inr (.inr ⟨fronts_not_hyphen hx, fronts_not_vowel hx⟩)⟩

end Jvotci
