import Verif.Lemmas.Mz

/-!
# Helper lemmas: lujvo stay words if mz is allowed
-/

namespace Jvotci

open Spec

/-- Rafsi and hyphens as a word put together. -/
theorem glued_links {s : Settings} : ∀ (m : List (Str × Str)) (f : Bool), (f = true → 2 ≤ m.length) →
    (∀ p ∈ m, Rafsi s.allowMz p.1 ∧ Glue p.2 ∧ Diph p.1) → (∃ u z, m = u ++ [(z, [])] ∧ ∃ c, z.getLast? = some c ∧ Vowel c) →
    Links s.yHyphens s.allowMz (flat m) → (∀ p ∈ m, p.2 = s%"y" → ∃ c, p.1.getLast? = some c ∧ Consonant c) →
    (∀ p ∈ m, p.2 = s%"'y" → VowelRafsi p.1) → ∃ p ps, Glued s f m (p :: ps) ∧ p.lead = false ∧ p.kind ≠ .zihevla := by
  intro m
  induction m with
  | nil => rintro f - - ⟨u, z, e, -⟩; simp at e
  | cons q m ih =>
    obtain ⟨x, g⟩ := q
    intro f hf hm hend hlk hy hay
    obtain ⟨hx, hg, hd⟩ := hm (x, g) (by simp)
    simp only at hx hg hd
    cases m with
    | nil =>
      obtain ⟨u, z, e, hv⟩ := hend
      cases u with
      | nil =>
        simp at e
        obtain ⟨rfl, rfl⟩ := e
        cases f with
        | true => exact absurd (hf rfl) (by simp)
        | false => exact ⟨_, _, .last hx hd hv, rfl, by simp⟩
      | cons a u => simp at e
    | cons q m =>
      obtain ⟨x', g'⟩ := q
      obtain ⟨hb, hlk'⟩ := links_flat.1 hlk
      obtain ⟨p, ps, hG, hpl, hpk⟩ := ih false (by simp) (fun p hp => hm p (List.mem_cons_of_mem _ hp))
        (by
          obtain ⟨u, z, e, hv⟩ := hend
          cases u with
          | nil => simp at e
          | cons a u => simp at e; exact ⟨u, z, e.2, hv⟩)
        hlk' (fun p hp => hy p (List.mem_cons_of_mem _ hp)) (fun p hp => hay p (List.mem_cons_of_mem _ hp))
      obtain ⟨c, hc, hc1, hc2⟩ := rk_last (rafsi_rk hx)
      rcases hg with rfl | rfl | rfl | hr
      · exact ⟨_, _, .bare hx hd (hb.1 rfl) hG hpk, rfl, by simp⟩
      · obtain ⟨c', hc', hcc⟩ := hy (x, s%"y") (by simp) rfl
        simp only at hc'
        rw [hc] at hc'
        cases hc'
        have hk : kindOf x = .cvc ∨ kindOf x = .short := by
          have hk := rafsi_kind hx
          cases hkx : kindOf x with
          | cvc => exact .inl rfl
          | short => exact .inr rfl
          | exp => exact absurd hkx hk
          | vv => exact absurd hcc (vowel_not_consonant (hc2 (by simp [hkx])))
          | ccv => exact absurd hcc (vowel_not_consonant (hc2 (by simp [hkx])))
          | long => exact absurd hcc (vowel_not_consonant (hc2 (by simp [hkx])))
        have key : ∀ {q : YPart}, PSeg s f false q → q.core = x → q.pieces = [x] → q.trail = false → q.lead = false → q.kind ≠ .zihevla →
            ∃ p ps, Glued s f ((x, s%"y") :: (x', g') :: m) (p :: ps) ∧ p.lead = false ∧ p.kind ≠ .zihevla := by
          intro q h1 h2 h3 h4 h5 h6
          have := Glued.sep h1 h2 h3 hG
          rw [h4, hpl] at this
          exact ⟨_, _, this, h5, h6⟩
        by_cases hcv : kindOf x = .cvc
        · exact key (.cvc hx hcv) rfl rfl rfl rfl (by simp)
        · refine key (q := ⟨false, x, false, .rafsi, [x]⟩) (.rafsi (reading_oneRafsi hx hd) (by simp) (rafsi_noY hx) ?_ (by simp) ?_ (by simp)) rfl rfl rfl rfl (by simp)
          · exact fun e => hcv (kind_cvc_iff.2 (pattern_cvc.1 e))
          · exact fun _ _ => ⟨x, rfl, hk⟩
      · have hv := hay (x, s%"'y") (by simp) rfl
        simp only at hv
        obtain ⟨a, b, d, hb1, hb2, hxe⟩ := hv
        have := Glued.sep (f := f) (q := ⟨false, x, true, .rafsi, [x]⟩) (.rafsi (reading_oneRafsi hx hd) (by simp) (rafsi_noY hx) (by
          intro e
          obtain ⟨a', b', c', rfl, -, -, hcc⟩ := tarmi_cvc.1 (pattern_cvc.1 e)
          rcases hxe with e | e
          · cases e; exact vowel_not_consonant hb2 ((isConsonant_iff _).1 hcc)
          · cases e) (by simp) (by simp) (fun _ => by
            rcases hxe with rfl | rfl <;> exact ⟨d, rfl, hb2⟩)) rfl rfl hG
        rw [hpl] at this
        exact ⟨_, _, this, rfl, by simp⟩
      · have hne : g ≠ [] := by rcases hr with rfl | rfl <;> simp
        obtain ⟨h1, h2⟩ := hb.2 hne
        have hv : VowelRafsi x := by
          cases h1 with
          | rafsi _ h => have := rafsi_length h; rcases hr with rfl | rfl <;> simp at this
          | y => simp at hr
          | apostropheY => simp at hr
          | rOrN _ _ h => exact h
          | afterY _ h => have := rafsi_length h; rcases hr with rfl | rfl <;> simp at this
          | afterR h => have := rafsi_length h; rcases hr with rfl | rfl <;> simp at this
          | afterN h => have := rafsi_length h; rcases hr with rfl | rfl <;> simp at this
        exact ⟨_, _, .rn hx hd hv (by rcases hr with rfl | rfl <;> simp) h1 h2 hG hpk, rfl, by simp⟩

/-- The tosmabru test on rafsi with their hyphens, and on the pieces. -/
theorem tosmG_flat {l : List (Str × Str)} (hg : ∀ p ∈ l, Glue p.2) (h : TosmG l) : FallsApart (flat l) := by
  induction h with
  | @gismu x a b c d e h t h1 h2 h3 h4 =>
    rw [flat_bare, flat_cons]
    unfold piecesOf
    split
    · exact .gismu h1 h2 h3 h4
    · exact .gismu h1 h2 h3 h4
  | @y x x' g' t h1 h2 h3 h4 =>
    have : g' = s%"y" := by
      rcases hg (x', g') (by simp) with h | h | h | h | h <;> simp only at h <;> subst h <;> simp at h4 ⊢
    subst this
    exact .y h1 h2 h3
  | @step x x' g' t h1 h2 h3 ih =>
    have := ih (fun p hp => hg p (List.mem_cons_of_mem _ hp))
    rw [flat_bare]
    rw [flat_cons] at this ⊢
    unfold piecesOf at this ⊢
    split at this
    · rename_i h; rw [if_pos h]; exact .more h1 h2 this
    · rename_i h; rw [if_neg h]; exact .more h1 h2 this

/-- A lujvo is still a word, of the same pieces, if mz is allowed. -/
theorem lujvo_up {s : Settings} {w : Str} {ps : List Str} (hs : s.allowMz = false) (hw : ps.flatten = reading w) (h : LujvoPieces s ps)
    (hn : NoMz (reading w)) (hlen : (reading w).length < 10 ^ 94) :
    ∃ t, (t = .lujvo ∨ t = .extendedLujvo) ∧ analyseBrivla .linked { s with allowMz := true } (reading w) = .ok (t, ps) := by
  have hlen5 : (reading w).length < 10 ^ 95 := Nat.lt_of_lt_of_le hlen (Nat.pow_le_pow_right (by decide) (by decide))
  have hlujvo := h
  obtain ⟨l0, l1, e01, hM, -, hE, -, -⟩ := lujvoPieces_made h
  have hsl0 := ext_not_slinkuhi hM hE (by
    rw [← flat_spell, ← e01]
    exact h.vowel)
  rw [← flat_spell, ← e01] at hsl0
  have hps := h.reading
  obtain ⟨m, rfl, hm, ⟨u, z, hu⟩, hlk⟩ := reading_flat (reading_mz (mz' := true) h.reading (hw ▸ hn))
  have hmem : ∀ p ∈ m, ∃ a b, m = a ++ p :: b := fun p hp => List.append_of_mem hp
  have hG : ∀ p ∈ m, Glue p.2 := fun p hp => (hm p hp).2.1
  have hcut : ∀ a b x g, g ≠ [] → m = a ++ (x, g) :: b → flat m = flat a ++ x :: g :: flat b := by
    intro a b x g hg e
    rw [e]
    simp [flat, piecesOf, hg]
  have hflat : (flat m).flatten = spell m := flat_spell m
  have h2 : 2 ≤ m.length := by
    rw [hu]
    cases u with
    | nil => have := h.two; rw [hu] at this; simp [flat, piecesOf] at this
    | cons a u => simp
  obtain ⟨p, qs, hGl, -, -⟩ := glued_links (s := { s with allowMz := true }) m true (fun _ => h2) hm
    ⟨u, z, hu, by
      obtain ⟨c, hc, hv⟩ := h.vowel
      refine ⟨c, ?_, hv⟩
      have hz := (hm (z, []) (by simp [hu])).1
      have hzne : z ≠ [] := by
        rintro rfl
        have := rafsi_length hz
        simp at this
      have e : spell m = spell u ++ z := by rw [hu]; simp [spell]
      rw [hflat, e, getLast?_append_ne _ hzne] at hc
      exact hc⟩
    hlk
    (by
      intro p hp e
      obtain ⟨a, b, em⟩ := hmem p hp
      obtain ⟨x, g⟩ := p
      simp only at e
      subst e
      exact lujvoPieces_y h (flat a) x (flat b) (hcut a b x _ (by simp) em))
    (by
      intro p hp e
      obtain ⟨a, b, em⟩ := hmem p hp
      obtain ⟨x, g⟩ := p
      simp only at e
      subst e
      have e2 := hcut a b x _ (by simp) em
      cases hb : flat b with
      | nil =>
        rw [hb] at e2
        obtain ⟨q, hq, hqr⟩ := hps.last
        rw [e2] at hq
        simp at hq
        have := rafsi_length hqr
        rw [← hq] at this
        simp at this
      | cons q v =>
        rw [hb] at e2
        exact (h.apostropheY _ x q v e2).2.2.1)
  have hread : reading w = spell m := by rw [← hw, hflat]
  rw [hread] at hlen hlen5 ⊢
  refine glued_word hGl ?_ ?_ ?_ hlen
  · refine ⟨?_, ?_, ?_, ?_⟩
    · intro x x' g' t e hv
      have hx' := (hm (x', g') (by rw [e]; simp)).1
      have hnh : ¬ Hyphen x' := rafsi_not_hyphen hx'
      have e2 : flat m = x :: x' :: ((if g' = [] then [] else [g']) ++ flat t) := by
        rw [e, flat_bare, flat_cons]
        unfold piecesOf
        split <;> rfl
      obtain ⟨h1, h2⟩ := h.first _ _ _ e2 hv hnh
      refine ⟨?_, h2⟩
      cases t with
      | nil => rfl
      | cons q t => simp [flat, piecesOf] at h1; split at h1 <;> simp at h1
    · intro x t e hv
      have e2 := hcut [] t x s%"'y" (by simp) e
      cases ht : flat t with
      | nil =>
        rw [ht] at e2
        obtain ⟨q, hq, hqr⟩ := hps.last
        rw [e2] at hq
        simp [flat] at hq
        have := rafsi_length hqr
        rw [← hq] at this
        simp at this
      | cons q v =>
        rw [ht] at e2
        intro hst
        have := (h.apostropheY _ x q v e2).1
        have hst : s.yHyphens = .standard := hst
        rw [hst] at this
        cases this
    · intro x g t e hp hh
      have hg := hG (x, g) (by rw [e]; simp)
      have : g = s%"'y" := by
        rcases hg with h | h | h | h | h <;> simp only at h <;> subst h <;> simp at hh ⊢
      subst this
      have e2 := hcut [] t x s%"'y" (by simp) e
      cases ht : flat t with
      | nil =>
        rw [ht] at e2
        obtain ⟨q, hq, hqr⟩ := hps.last
        rw [e2] at hq
        simp [flat] at hq
        have := rafsi_length hqr
        rw [← hq] at this
        simp at this
      | cons q v =>
        rw [ht] at e2
        exact not_vowelRafsi_ccv hp (h.apostropheY _ x q v e2).2.2.1
    · intro hall hco
      obtain ⟨p, hp, h1⟩ := h.cluster hco
      obtain ⟨q, hq, h2⟩ := mem_flat.1 hp
      obtain ⟨k1, k2, k3⟩ := hall q hq
      have hx := (hm q hq).1
      rcases h2 with rfl | ⟨hne, rfl⟩
      · rcases h1 with h1 | h1 | h1
        · rw [h1] at hx; have := rafsi_length hx; simp at this
        · rw [h1] at hx; have := rafsi_length hx; simp at this
        · exact h1.2 k1
      · rcases h1 with h1 | h1 | h1
        · exact k2 h1
        · exact k3 h1
        · exact h1.1 ((hG q hq).hyphen hne)
  · exact fun ht => h.whole (tosmG_flat hG ht)
  · have hvow : ∃ c, (spell m).getLast? = some c ∧ Vowel c := by rw [← hflat]; exact h.vowel
    have hhead : ∃ c, (spell m).head? = some c ∧ (Vowel c ∨ Consonant c) := by
      obtain ⟨q, hq, hqr⟩ := hps.first
      rw [← hflat]
      cases hfm : flat m with
      | nil => rw [hfm] at hq; cases hq
      | cons a v =>
        rw [hfm] at hq
        cases hq
        obtain ⟨c, t, rfl, hc⟩ := rafsi_first hqr
        exact ⟨c, rfl, .inr ((isConsonant_iff c).1 hc)⟩
    rw [hflat, slinkuhi_program, slinkuhi_word_iff hvow hhead hlen5] at hsl0
    refine (slinkuhi_word_iff hvow hhead hlen5).2 ?_
    intro hc qs hq e
    refine hsl0 hc qs (lujvoPieces_mz (s := { yHyphens := s.yHyphens, allowMz := true }) (b := s.allowMz) hq ?_ (.inl rfl)) e
    rw [e]
    exact noMz_to (hread ▸ hn)

end Jvotci
