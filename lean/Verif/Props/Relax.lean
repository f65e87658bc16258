import Verif.Lemmas.Relax

/-!
# C52: relaxing the options only extends

The README presents the options as relaxations: ALLOW_Y "allows" more hyphens, experimental rafsi "extend" the rafsi, the
`consonants` option is a "relaxation of the requirement". `Spec.Looser s s'` says that each option of `s'` is that of
`s` or a more relaxed one. (`allow_mz` is left out: see C56.)
-/

namespace Jvotci

open Spec

/-- **C52**. A brivla stays a brivla, of the same type and with the same decomposition, when options are relaxed. -/
theorem C52_brivla {s s' : Settings} {w : Str} {t : BType} {ps : List Str} (hlen : w.length < 10 ^ 91) (hs : Looser s s')
    (ht : t ≠ .cmevla) (h : analyseBrivla .linked s w = .ok (t, ps)) : analyseBrivla .linked s' w = .ok (t, ps) := by
  have hp : ∀ n, 91 ≤ n → w.length < 10 ^ n := fun n hn => Nat.lt_of_lt_of_le hlen (Nat.pow_le_pow_right (by decide) hn)
  have hb : s.consonants = .cluster → HasBreak (reading w) := C36_break_partial h ht
  cases t with
  | cmevla => exact absurd rfl ht
  | gismu =>
    rw [C03_gismu_iff] at h ⊢
    rw [hs.mz]
    exact h
  | lujvo =>
    rw [C41_lujvo (hp _ (by decide))] at h ⊢
    refine ⟨h.1, lujvoPieces_same hs.same hs.mz ?_ h.2⟩
    intro hc
    rcases hs.consonants with h1 | h1 | h1
    · exact .inl (h1 ▸ hc)
    · exact .inl h1
    · rw [h1] at hc; cases hc
  | zihevla =>
    rw [C45_zihevla (hp _ (by decide))] at h ⊢
    obtain ⟨h1, h2, h3, h4, h5, h6⟩ := h
    have hw := reading_short w
    have hl : (reading w).length < 10 ^ 92 := by
      have : (10 : Nat) ^ 92 = 10 * 10 ^ 91 := by rw [Nat.pow_succ, Nat.mul_comm]
      omega
    rw [hs.mz]
    refine ⟨h1, h2, h3, ?_, ?_, ?_⟩
    · intro qs hq e
      refine h4 qs (lujvoPieces_same hs.same.symm hs.mz.symm ?_ hq) e
      intro hc
      exact .inr (pieces_break hq (by rw [e]; exact hb hc))
    · intro u t e hu ht' ha
      refine plain_false ?_ ?_ ?_ hs.same (h5 u t e hu ht' ha)
      · have : (reading w).length = u.length + t.length := by rw [e]; simp
        have : (10 : Nat) ^ 93 = 10 * 10 ^ 92 := by rw [Nat.pow_succ, Nat.mul_comm]
        omega
      · rintro rfl
        rcases ht' with h | h <;> cases h
      · intro c hc
        exact h2.sounds.letters c (by rw [e]; simp [hc])
    · intro hc qs hq
      exact h6 hc qs (plainPieces_same hs.same.symm hq)
  | extendedLujvo =>
    rw [C47_extended (hp _ (by decide))] at h ⊢
    obtain ⟨parts, h1, h2, h3⟩ := h
    have hw := reading_short w
    have hl : (reading w).length < 10 ^ 92 := by
      have : (10 : Nat) ^ 92 = 10 * 10 ^ 91 := by rw [Nat.pow_succ, Nat.mul_comm]
      omega
    exact ⟨parts, h1, h2, extended_relax hs (by rw [h1]; exact hl) (by rw [h1]; exact hb) h3⟩

/-- What is known of the slinku'i test when a cmevla is accepted. -/
theorem cmevla_slinkuhi {s : Settings} {w : Str} {ps : List Str} (h : analyseBrivla .linked s w = .ok (.cmevla, ps)) :
    (ps.flatten = reading w ∧ CmevlaPieces s ps) ∨ isSlinkuhi (program .linked) s.yHyphens s.allowMz (reading w) = .ok false := by
  rw [analyseBrivla_program] at h
  obtain ⟨n, hn, h⟩ := analyseR_ok h
  have hn := (normalise_ok hn).2
  subst hn
  generalize ht : BType.cmevla = t at h
  cases h with
  | gismu => cases ht
  | zihevla => cases ht
  | @kaha c _ hl _ _ _ hk =>
    left
    split at ht
    · rename_i hc
      obtain ⟨c', l, m, hc', rfl, hj, hM, hA, hE, hF, hd⟩ := jvokaha_canon hk
      rw [hl] at hc'
      cases hc'
      rw [hc] at hM hA
      exact ⟨hj, cmevlaPieces_settings (s := kahaSettings s.yHyphens s.consonants s.glides s.allowMz) rfl rfl (made_cmevlaPieces hM hA hE hd hF)⟩
    · cases ht
  | @parts c0 l e st hc0 hl hcc hg1 hg2 hlc hk he hn1 hloop hcon hslk =>
    right
    rcases hslk with ⟨hv, -⟩ | h
    · unfold isSlinkuhi
      have : idx (reading w) 0 = .ok c0 := by
        cases hr : reading w with
        | nil => rw [hr] at hc0; cases hc0
        | cons a v => rw [hr] at hc0; cases hc0; rfl
      rw [this, ok_bind, if_pos hv]
    · exact h

/-- **C52**, cmevla: the same, if `y_hyphens` is left as it is. If STANDARD is relaxed to ALLOW_Y, the call can raise
`IndexError`, but only on words that end in `r` after two vowels. -/
theorem C52_cmevla {s s' : Settings} {w : Str} {ps : List Str} (hlen : w.length < 10 ^ 91) (hs : Looser s s')
    (h : analyseBrivla .linked s w = .ok (.cmevla, ps)) :
    analyseBrivla .linked s' w = .ok (.cmevla, ps) ∨
      (s.yHyphens = .standard ∧ s'.yHyphens = .allowY ∧ analyseBrivla .linked s' w = .error .index ∧
        ∃ u x y, reading w = u ++ [x, y, 'r'] ∧ Vowel y ∧ (Vowel x ∨ x = '\'')) := by
  have hp : ∀ n, 91 ≤ n → w.length < 10 ^ n := fun n hn => Nat.lt_of_lt_of_le hlen (Nat.pow_le_pow_right (by decide) hn)
  have hw := reading_short w
  have hl : (reading w).length < 10 ^ 92 := by
    have : (10 : Nat) ^ 92 = 10 * 10 ^ 91 := by rw [Nat.pow_succ, Nat.mul_comm]
    omega
  have hl4 : (reading w).length < 10 ^ 94 := Nat.lt_of_lt_of_le hl (Nat.pow_le_pow_right (by decide) (by decide))
  have hl6 : (reading w).length < 10 ^ 96 := Nat.lt_of_lt_of_le hl (Nat.pow_le_pow_right (by decide) (by decide))
  rcases cmevla_ok hl4 h with ⟨h1, h2⟩ | ⟨parts, h1, rfl, h2⟩
  · exact .inl (C42_every_cmevla h1.symm (cmevlaPieces_same hs.same hs.mz h2) (by rw [h1]; exact hl6))
  · have h3 := extendedCmevla_relax hs (by rw [h1]; exact hl) h2
    rcases extendedCmevla_of hl4 h1 h3 with h4 | ⟨h4, h5⟩
    · exact .inl h4
    · rcases cmevla_slinkuhi h with ⟨h6, h7⟩ | h6
      · exact .inl (C42_every_cmevla h6.symm (cmevlaPieces_same hs.same hs.mz h7) (by rw [h6]; exact hl6))
      · rcases hs.y with hy | ⟨hy, hy'⟩
        · rw [hy, hs.mz, h6] at h5
          cases h5
        · refine .inr ⟨hy, hy', h4, ?_⟩
          rcases C15_index_error_partial h4 with rfl | ⟨h7, -⟩ | ⟨-, h7⟩
          · cases h
          · rw [hy'] at h7; cases h7
          · exact h7

/-- The second case of `C52_cmevla` does occur. -/
theorem C52_cmevla_index :
    analyseBrivla .linked {} s%"mlatybai'yspageir" = .ok (.cmevla, [s%"mlat", s%"y", s%"bai", s%"'y", s%"spageir"]) ∧
    analyseBrivla .linked { yHyphens := .allowY } s%"mlatybai'yspageir" = .error .index := by decide +kernel

/-- FORCE_Y is not a relaxation: words of other types are made of the same letters, and words are lost. -/
theorem C52_force_y_false :
    analyseBrivla .linked {} s%"poirmei" = .ok (.lujvo, [s%"poi", s%"r", s%"mei"]) ∧
    analyseBrivla .linked { yHyphens := .forceY } s%"poirmei" = .ok (.zihevla, [s%"poirmei"]) ∧
    analyseBrivla .linked {} s%"pefsyfe'ebairli'a" = .ok (.lujvo, [s%"pefs", s%"y", s%"fe'e", s%"bai", s%"r", s%"li'a"]) ∧
    analyseBrivla .linked { yHyphens := .forceY } s%"pefsyfe'ebairli'a" = .error .notBrivla ∧
    analyseBrivla .linked { yHyphens := .forceY } s%"cnurkeircau" = .ok (.zihevla, [s%"cnurkeircau"]) ∧
    analyseBrivla .linked { yHyphens := .allowY } s%"cnurkeircau" = .error .notBrivla := by decide +kernel

/-- The options of the example in the README relax the default options in four ways. -/
example : Looser {} { yHyphens := .allowY, expRafsi := true, consonants := .oneConsonant, glides := true } :=
  ⟨rfl, .inr ⟨rfl, rfl⟩, fun _ => rfl, .inr (.inr rfl), fun _ => rfl⟩
example : analyseBrivla .linked {} s%"latyspageti" = .ok (.extendedLujvo, [s%"lat", s%"y", s%"spageti"]) ∧
    analyseBrivla .linked { yHyphens := .allowY, expRafsi := true, consonants := .oneConsonant, glides := true } s%"latyspageti" =
      .ok (.extendedLujvo, [s%"lat", s%"y", s%"spageti"]) := by decide +kernel
-- words that only the relaxed options admit
example : analyseBrivla .linked {} s%"nei'ynei" = .error .notBrivla ∧ analyseBrivla .linked {} s%"rai'ymlatu" = .error .notBrivla ∧
    analyseBrivla .linked { yHyphens := .allowY } s%"rai'ymlatu" = .ok (.extendedLujvo, [s%"rai", s%"'y", s%"mlatu"]) ∧
    analyseBrivla .linked { yHyphens := .allowY, consonants := .twoConsonants } s%"nei'ynei" = .ok (.extendedLujvo, [s%"nei", s%"'y", s%"nei"]) := by
  decide +kernel
-- a cmevla for which the first case holds although `y_hyphens` is relaxed
example : analyseBrivla .linked {} s%"mlatybai'yspager" = .ok (.cmevla, [s%"mlat", s%"y", s%"bai", s%"'y", s%"spa", s%"ger"]) ∧
    analyseBrivla .linked { yHyphens := .allowY } s%"mlatybai'yspager" =
      .ok (.cmevla, [s%"mlat", s%"y", s%"bai", s%"'y", s%"spa", s%"ger"]) := by decide +kernel

end Jvotci
