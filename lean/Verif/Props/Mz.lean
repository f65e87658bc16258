import Verif.Lemmas.MzUp
import Verif.Props.Termination
import Verif.Props.Input
import Verif.Props.Letters

/-!
# C56: what `allow_mz` changes

The option allows the consonants m and z to stand together. So it should change nothing about words in which they do not
meet, not even across a y, and no word should be lost by it.
-/

namespace Jvotci

open Spec

theorem noMz_of {w : Str} (h : ¬ Occurs s%"mz" w) : NoMz w := by
  rintro ⟨u, v, rfl⟩
  exact h ⟨u, v, by simp⟩

/-- A word with neither mz nor myz in it is judged the same whatever the option. -/
theorem analyse_mz {s : Settings} {b : Bool} {w : Str} {t : BType} {ps : List Str} (hlen : w.length < 10 ^ 91)
    (hn : NoMz (reading w)) (hy : NoMyz (reading w)) (h : analyseBrivla .linked s w = .ok (t, ps)) :
    analyseBrivla .linked { s with allowMz := b } w = .ok (t, ps) := by
  have hp : ∀ n, 91 ≤ n → w.length < 10 ^ n := fun n hn => Nat.lt_of_lt_of_le hlen (Nat.pow_le_pow_right (by decide) hn)
  have hw := reading_short w
  have hl : (reading w).length < 10 ^ 92 := by
    have : (10 : Nat) ^ 92 = 10 * 10 ^ 91 := by rw [Nat.pow_succ, Nat.mul_comm]
    omega
  have hl4 : (reading w).length < 10 ^ 94 := Nat.lt_of_lt_of_le hl (Nat.pow_le_pow_right (by decide) (by decide))
  have hl6 : (reading w).length < 10 ^ 96 := Nat.lt_of_lt_of_le hl (Nat.pow_le_pow_right (by decide) (by decide))
  cases t with
  | gismu =>
    rw [C03_gismu_iff] at h ⊢
    exact ⟨h.1, gismu_mz h.2.1 hn, h.2.2⟩
  | lujvo =>
    rw [C41_lujvo (hp _ (by decide))] at h ⊢
    exact ⟨h.1, lujvoPieces_mz h.2 (h.1 ▸ hn) (.inr (h.1 ▸ hy))⟩
  | zihevla =>
    rw [C45_zihevla (hp _ (by decide))] at h ⊢
    obtain ⟨h1, h2, h3, h4, h5, h6⟩ := h
    refine ⟨h1, ⟨sounds_mz h2.sounds hn, h2.vowel, h2.cluster, h2.syllables⟩, fun hg => h3 (gismu_mz hg hn), ?_, h5, ?_⟩
    · intro qs hq e
      exact h4 qs (lujvoPieces_mz (s := { s with allowMz := b }) (b := s.allowMz) hq (e ▸ hn) (.inr (e ▸ hy))) e
    · intro hc qs hq e
      refine h6 hc qs (lujvoPieces_mz (s := { yHyphens := s.yHyphens, allowMz := b }) (b := s.allowMz) hq ?_ (.inr ?_)) e
      · rw [e]; exact noMz_to hn
      · rw [e]; exact noMyz_to hy
  | extendedLujvo =>
    rw [C47_extended (hp _ (by decide))] at h ⊢
    obtain ⟨parts, h1, h2, h3⟩ := h
    exact ⟨parts, h1, h2, extendedLujvo_mz h3 (h1 ▸ hn) (.inr (h1 ▸ hy))⟩
  | cmevla =>
    rcases cmevla_ok hl4 h with ⟨h1, h2⟩ | ⟨parts, h1, rfl, h2⟩
    · exact C42_every_cmevla h1.symm (cmevlaPieces_mz h2 (h1 ▸ hn) (.inr (h1 ▸ hy))) (by rw [h1]; exact hl6)
    · have h3 := extendedCmevla_mz (b := b) h2 (h1 ▸ hn) (.inr (h1 ▸ hy))
      rcases extendedCmevla_of hl4 h1 h3 with h4 | ⟨h4, h5⟩
      · exact h4
      · rcases cmevla_slinkuhi h with ⟨h6, h7⟩ | h6
        · have := C42_every_cmevla (b := .linked) h6.symm (cmevlaPieces_mz (b := b) h7 (h6 ▸ hn) (.inr (h6 ▸ hy))) (by rw [h6]; exact hl6)
          rw [this] at h4
          cases h4
        · obtain ⟨c, hc, hcc⟩ := h2.consonant
          rw [h1] at hc
          obtain ⟨e, he⟩ := slinkuhi_index (mz' := s.allowMz) hn hc (.inr hcc) h5
          rw [he] at h6
          cases h6

/-- **C56**. A word in which neither mz nor myz occurs is accepted with `allow_mz` exactly if it is without, with the same
type and the same pieces. -/
theorem C56_no_mz {s : Settings} {w : Str} {r : BType × List Str} (hlen : w.length < 10 ^ 91) (b b' : Bool)
    (h1 : ¬ Occurs s%"mz" (reading w)) (h2 : ¬ Occurs s%"myz" (reading w)) :
    analyseBrivla .linked { s with allowMz := b } w = .ok r ↔ analyseBrivla .linked { s with allowMz := b' } w = .ok r :=
  ⟨fun h => analyse_mz (s := { s with allowMz := b }) hlen (noMz_of h1) h2 h,
    fun h => analyse_mz (s := { s with allowMz := b' }) hlen (noMz_of h1) h2 h⟩

/-- The same for `is_brivla`, when it answers. -/
theorem C56_no_mz_isBrivla {s : Settings} {w : Str} (hlen : w.length < 10 ^ 91) (b b' : Bool)
    (h1 : ¬ Occurs s%"mz" (reading w)) (h2 : ¬ Occurs s%"myz" (reading w)) :
    isBrivla .linked { s with allowMz := b } w = .ok true ↔ isBrivla .linked { s with allowMz := b' } w = .ok true := by
  have key : ∀ b b', isBrivla .linked { s with allowMz := b } w = .ok true → isBrivla .linked { s with allowMz := b' } w = .ok true := by
    intro b b' h
    unfold isBrivla at h ⊢
    cases ha : analyseBrivla .linked { s with allowMz := b } w with
    | error e => rw [ha] at h; cases e <;> cases h
    | ok r =>
      rw [ha] at h
      rw [(C56_no_mz hlen b b' h1 h2).1 ha]
      exact h
  exact ⟨key b b', key b' b⟩

/-- **C56**. Allowing mz loses no brivla: it is still accepted and has the same pieces. Its type is the same too, except that
a lujvo with an m, y and z that meet is now an extended lujvo, because the y is no longer needed. -/
theorem C56_brivla {s : Settings} {w : Str} {t : BType} {ps : List Str} (hlen : w.length < 10 ^ 91) (hs : s.allowMz = false)
    (ht : t ≠ .cmevla) (h : analyseBrivla .linked s w = .ok (t, ps)) :
    analyseBrivla .linked { s with allowMz := true } w = .ok (t, ps) ∨
      (t = .lujvo ∧ Occurs s%"myz" (reading w) ∧ analyseBrivla .linked { s with allowMz := true } w = .ok (.extendedLujvo, ps)) := by
  have hp : ∀ n, 91 ≤ n → w.length < 10 ^ n := fun n hn => Nat.lt_of_lt_of_le hlen (Nat.pow_le_pow_right (by decide) hn)
  have hw := reading_short w
  have hl : (reading w).length < 10 ^ 92 := by
    have : (10 : Nat) ^ 92 = 10 * 10 ^ 91 := by rw [Nat.pow_succ, Nat.mul_comm]
    omega
  have hl4 : (reading w).length < 10 ^ 94 := Nat.lt_of_lt_of_le hl (Nat.pow_le_pow_right (by decide) (by decide))
  have hn : NoMz (reading w) := by
    intro ha
    have := (C07_consonant_pairs h ha (by decide) (by decide)).2.2.2.2.2.2.2 rfl
    rw [hs] at this
    cases this
  by_cases hy : NoMyz (reading w)
  · exact .inl (analyse_mz hlen hn hy h)
  cases t with
  | cmevla => exact absurd rfl ht
  | gismu =>
    rw [C03_gismu_iff] at h
    refine .inl (C03_gismu_iff.2 ⟨h.1, gismu_mz h.2.1 hn, h.2.2⟩)
  | zihevla =>
    have h2 := ((C45_zihevla (hp _ (by decide))).1 h).2.1.sounds.letters
    refine absurd (noMyz_of_noY fun hc => ?_) hy
    rcases h2 _ hc with h | h | h <;> revert h <;> decide
  | extendedLujvo =>
    rw [C47_extended (hp _ (by decide))] at h
    rw [C47_extended (hp _ (by decide))]
    obtain ⟨parts, h1, h2, h3⟩ := h
    exact .inl ⟨parts, h1, h2, extendedLujvo_mz h3 (h1 ▸ hn) (.inl rfl)⟩
  | lujvo =>
    have h0 := h
    rw [C41_lujvo (hp _ (by decide))] at h
    have hne : w ≠ [] := by
      rintro rfl
      cases h0
    obtain ⟨a, ha, har⟩ := h.2.reading.first
    have hhead : ∃ c, (reading w).head? = some c ∧ Consonant c := by
      rw [← h.1]
      cases ps with
      | nil => cases ha
      | cons p ps =>
        cases ha
        obtain ⟨c, t, rfl, hc⟩ := rafsi_first har
        exact ⟨c, rfl, (isConsonant_iff c).1 hc⟩
    obtain ⟨c, hc, hcc⟩ := hhead
    have hrn : reading w ≠ [] := by intro e; rw [e] at hc; cases hc
    have hrr : reading (reading w) = reading w := by
      have := C40_normalise_idempotent_partial (normalise_eq hne) hrn (by
        rw [hc]
        rintro e
        cases e
        revert hcc
        decide)
      rw [normalise_eq hrn] at this
      exact Except.ok.inj this
    obtain ⟨t, h1, h2⟩ := lujvo_up hs h.1 h.2 hn hl4
    rw [analyse_of_reading hrn, hrr, ← analyse_of_reading hne] at h2
    rcases h1 with rfl | rfl
    · exact .inl h2
    · exact .inr ⟨rfl, Classical.not_not.1 hy, h2⟩

/-- So `is_brivla` stays True. -/
theorem C56_isBrivla {s : Settings} {w : Str} (hlen : w.length < 10 ^ 91) (h : isBrivla .linked { s with allowMz := false } w = .ok true) :
    isBrivla .linked { s with allowMz := true } w = .ok true := by
  unfold isBrivla at h
  cases ha : analyseBrivla .linked { s with allowMz := false } w with
  | error e => rw [ha] at h; cases e <;> cases h
  | ok r =>
    obtain ⟨t, ps⟩ := r
    rw [ha] at h
    unfold isBrivla
    rcases C56_brivla (s := { s with allowMz := false }) hlen rfl (by rintro rfl; cases h) ha with h1 | ⟨rfl, -, h1⟩
    · rw [h1]; exact h
    · rw [h1]; rfl

/-- That is true of brivla only: a cmevla made of rafsi can be lost. -/
theorem C56_cmevla_false :
    analyseBrivla .linked {} s%"ki'ilumyza'izib" = .ok (.cmevla, [s%"ki'i", s%"lum", s%"y", s%"za'i", s%"zib"]) ∧
    analyseBrivla .linked { allowMz := true } s%"ki'ilumyza'izib" = .error .notBrivla := by decide +kernel

-- a word the option makes no difference to, and a cmevla
example : ¬ Occurs s%"mz" (reading s%"latkerlo") ∧ ¬ Occurs s%"myz" (reading s%"latkerlo") ∧
    analyseBrivla .linked { allowMz := true } s%"latkerlo" = .ok (.lujvo, [s%"lat", s%"kerlo"]) := by
  refine ⟨?_, ?_, by decide +kernel⟩ <;>
  · rintro ⟨u, v, e⟩
    have : 'm' ∈ reading s%"latkerlo" := by rw [e]; simp
    revert this
    decide
-- a lujvo that becomes an extended lujvo, and one that does not although it contains myz
example : analyseBrivla .linked {} s%"cumyzbi" = .ok (.lujvo, [s%"cum", s%"y", s%"zbi"]) ∧
    analyseBrivla .linked { allowMz := true } s%"cumyzbi" = .ok (.extendedLujvo, [s%"cum", s%"y", s%"zbi"]) := by decide +kernel
example : analyseBrivla .linked {} s%"lojmyzba" = .ok (.lujvo, [s%"lojm", s%"y", s%"zba"]) ∧
    analyseBrivla .linked { allowMz := true } s%"lojmyzba" = .ok (.lujvo, [s%"lojm", s%"y", s%"zba"]) := by decide +kernel
-- words there are only with the option: the hypothesis that there is no mz is needed
example : analyseBrivla .linked {} s%"nimzu'e" = .error .notBrivla ∧
    analyseBrivla .linked { allowMz := true } s%"nimzu'e" = .ok (.lujvo, [s%"nim", s%"zu'e"]) := by decide +kernel

end Jvotci
