import Verif.Lemmas.Words2

/-!
# Which words are lujvo (C41, C42)

`analyse_brivla` decides whether a word is a lujvo by making the lujvo of its rafsi and comparing. The theorems here
say what comes out of that, in terms of `LujvoPieces` and `CmevlaPieces` (Verif/SpecPieces.lean).
-/

namespace Jvotci

open Spec

theorem reading_normal {w : Str} (h : w ≠ []) : normalise w = .ok (reading w) := normalise_eq h

theorem lujvoPieces_settings {s s' : Settings} {ps : List Str} (hy : s.yHyphens = s'.yHyphens) (hm : s.allowMz = s'.allowMz)
    (hc : s.consonants = s'.consonants) (h : LujvoPieces s ps) : LujvoPieces s' ps := by
  obtain ⟨h1, h2, h3, h4, h5, h6, h7, h8⟩ := h
  rw [hy, hm] at h1
  rw [hm] at h5
  rw [hy] at h6
  rw [hc] at h8
  exact ⟨h1, h2, h3, h4, h5, h6, h7, h8⟩

theorem cmevlaPieces_settings {s s' : Settings} {ps : List Str} (hy : s.yHyphens = s'.yHyphens) (hm : s.allowMz = s'.allowMz)
    (h : CmevlaPieces s ps) : CmevlaPieces s' ps := by
  obtain ⟨h1, h2, h3, h4, h5, h6⟩ := h
  rw [hy, hm] at h1
  rw [hm] at h4
  exact ⟨h1, h2, h3, h4, h5, h6⟩

theorem pieces_long {y : YHyphens} {mz : Bool} {ps : List Str} (h : Reading y mz ps) (h2 : 2 ≤ ps.length) : 6 ≤ ps.flatten.length := by
  obtain ⟨x, k, x', k', t, rfl, hm, -⟩ := reading_two h h2
  have h1 := rafsi_length (hm (x, k) (by simp)).1
  have h2 := rafsi_length (hm (x', k') (by simp)).1
  simp only at h1 h2
  rw [flat_spell]
  simp only [spell, List.map_cons, List.flatten_cons, List.length_append]
  omega

theorem gismu_length {mz : Bool} {w : Str} (h : isGismu mz w = true) : w.length = 5 := by
  cases isGismu_iff.1 h <;> rfl

theorem cost_bound {y : YHyphens} {l m : List (Str × Str)} (hE : Ext y l m) (h : (spell m).length < 10 ^ 96) : letterCost (spell l) < 10 ^ 100 := by
  have h1 := spell_ext_length hE
  have h2 : (spell l).count 'y' ≤ (spell l).length := List.count_le_length
  unfold letterCost
  omega

/-- **C41**. `analyse_brivla(w)` returns LUJVO with the pieces `ps` only if `w` is read as the pieces joined, and they
are the pieces of a lujvo; the specification does not mention the search for the best lujvo. (`.linked`: with the missing
import of jvozba.py in place; without it, C34, nothing is a LUJVO.) -/
theorem C41_only_lujvo {b : Build} {s : Settings} {w : Str} {ps : List Str} (h : analyseBrivla b s w = .ok (.lujvo, ps)) :
    ps.flatten = reading w ∧ LujvoPieces s ps := by
  rw [analyseBrivla_program] at h
  obtain ⟨n, hn, h⟩ := analyseR_ok h
  have hn := (normalise_ok hn).2
  subst hn
  generalize ht : BType.lujvo = t at h
  cases h with
  | gismu => cases ht
  | zihevla => cases ht
  | parts => split at ht <;> cases ht
  | @kaha c _ hl _ _ _ hk =>
    split at ht
    · cases ht
    · rename_i hc
      obtain ⟨c', l, m, hc', rfl, hj, hM, hA, hE, hF, hd⟩ := jvokaha_canon hk
      rw [hl] at hc'
      cases hc'
      have : isConsonant c = false := by simpa using hc
      rw [this] at hM hA
      exact ⟨hj, lujvoPieces_settings (s := kahaSettings s.yHyphens s.consonants s.glides s.allowMz) rfl rfl rfl (made_lujvoPieces hM hA hE hd)⟩

/-- **C41**. Conversely, a word read as the pieces of a lujvo joined is a LUJVO with these pieces. The search starts from
the score 10^100, hence the bound on the length. -/
theorem C41_every_lujvo {s : Settings} {w : Str} {ps : List Str} (hw : reading w = ps.flatten) (h : LujvoPieces s ps)
    (hlen : ps.flatten.length < 10 ^ 96) : analyseBrivla .linked s w = .ok (.lujvo, ps) := by
  have h6 := pieces_long h.reading h.two
  have hne : w ≠ [] := by rintro rfl; rw [← hw] at h6; simp [reading] at h6
  rw [analyseBrivla_program]
  unfold analyseR
  rw [reading_normal hne, hw, ok_bind]
  obtain ⟨c, hc, hv⟩ := h.vowel
  have hcv := (isVowel_iff c).2 hv
  have hcc := not_consonant_of_vowel hcv
  have hhead : ∃ c0, ps.flatten.head? = some c0 := by
    cases hp : ps.flatten with
    | nil => rw [hp] at h6; simp at h6
    | cons a v => exact ⟨a, rfl⟩
  obtain ⟨c0, hc0⟩ := hhead
  have hg : isGismu s.allowMz ps.flatten = false := by
    cases hg : isGismu s.allowMz ps.flatten with
    | false => rfl
    | true => have := gismu_length hg; omega
  unfold analyseNorm
  simp only [hc0, hc, hcv, hcc, hg, Bool.not_true, Bool.and_false, Bool.false_eq_true, if_false, Bool.false_and, Bool.not_false]
  obtain ⟨l, m, rfl, hM, hA, hE, hF, hd⟩ := lujvoPieces_made (s := kahaSettings s.yHyphens s.consonants s.glides s.allowMz) (lujvoPieces_settings (s := s) rfl rfl rfl h)
  rw [flat_spell] at hlen ⊢
  have hns := canon_not_slinkuhi hM (by
    obtain ⟨c, h1, h2⟩ := hA.ends
    exact ⟨c, h1, by simpa using h2⟩)
  rw [jvokaha_accepts hM hA hE hF hd (cost_bound hE hlen) (fun _ => ⟨rfl, hns⟩)]

/-- The two halves together. -/
theorem C41_lujvo {s : Settings} {w : Str} {ps : List Str} (hlen : w.length < 10 ^ 95) :
    analyseBrivla .linked s w = .ok (.lujvo, ps) ↔ ps.flatten = reading w ∧ LujvoPieces s ps := by
  constructor
  · exact C41_only_lujvo
  · rintro ⟨hw, h⟩
    refine C41_every_lujvo hw.symm h ?_
    rw [hw]
    have hchar : ∀ c : Char, (readChar c).length ≤ 2 := by
      intro c
      unfold readChar
      repeat' split
      all_goals simp
    have key : ∀ v : Str, (v.flatMap readChar).length ≤ 2 * v.length := by
      intro v
      induction v with
      | nil => simp
      | cons c v ih =>
        simp only [List.flatMap_cons, List.length_append, List.length_cons]
        have := hchar c
        omega
    have : (reading w).length ≤ 2 * w.length := by
      unfold reading
      split
      · rename_i cs
        have := key cs
        simp only [List.length_cons]
        omega
      · exact key _
    omega

-- a lujvo with an extra n, one with 'y, one kept together by y, and words that miss one of the conditions
example : LujvoPieces {} [s%"sai", s%"r", s%"zba", s%"ta'u"] := (C41_only_lujvo (b := .linked) (w := s%"sairzbata'u") (by decide +kernel)).2
example : LujvoPieces { yHyphens := .forceY } [s%"sai", s%"'y", s%"zba", s%"ta'u"] :=
  (C41_only_lujvo (b := .linked) (w := s%"SAI'yzbatahu") (by decide +kernel)).2
example : LujvoPieces {} [s%"tos", s%"y", s%"mabru"] := (C41_only_lujvo (b := .linked) (w := s%"tosymabru") (by decide +kernel)).2
example : ¬ LujvoPieces {} [s%"tos", s%"mabru"] :=
  fun h => h.whole (.gismu (by decide) ⟨'s', 'm', rfl, rfl, by decide⟩ (by decide) (by decide))
example : ¬ LujvoPieces {} [s%"sai", s%"zba", s%"ta'u"] := by
  intro h
  have := h.first s%"sai" s%"zba" [s%"ta'u"] rfl ⟨'s', 'a', 'i', by decide, by decide, .inl rfl⟩ (by decide)
  exact absurd this.1 (by simp)

/-- **C42**. A word read as the pieces of a cmevla joined is accepted as a CMEVLA with these pieces. -/
theorem C42_every_cmevla {b : Build} {s : Settings} {w : Str} {ps : List Str} (hw : reading w = ps.flatten) (h : CmevlaPieces s ps)
    (hlen : ps.flatten.length < 10 ^ 96) : analyseBrivla b s w = .ok (.cmevla, ps) := by
  have h6 := pieces_long h.reading h.two
  have hne : w ≠ [] := by rintro rfl; rw [← hw] at h6; simp [reading] at h6
  rw [analyseBrivla_program]
  unfold analyseR
  rw [reading_normal hne, hw, ok_bind]
  obtain ⟨c, hc, hv⟩ := h.consonant
  have hcc := (isConsonant_iff c).2 hv
  have hhead : ∃ c0, ps.flatten.head? = some c0 := by
    cases hp : ps.flatten with
    | nil => rw [hp] at h6; simp at h6
    | cons a v => exact ⟨a, rfl⟩
  obtain ⟨c0, hc0⟩ := hhead
  have hg : isGismu s.allowMz (ps.flatten ++ s%"a") = false := by
    cases hg : isGismu s.allowMz (ps.flatten ++ s%"a") with
    | false => rfl
    | true =>
      have := gismu_length hg
      simp only [List.length_append] at this
      omega
  unfold analyseNorm
  simp only [hc0, hc, hcc, hg, Bool.not_true, Bool.and_false, Bool.false_eq_true, if_false, Bool.false_and, if_true]
  obtain ⟨l, m, rfl, hM, hA, hE, hF, hd⟩ := cmevlaPieces_made (s := kahaSettings s.yHyphens s.consonants s.glides s.allowMz) (cmevlaPieces_settings (s := s) rfl rfl h)
  rw [flat_spell] at hlen ⊢
  rw [jvokaha_accepts hM hA hE hF hd (cost_bound hE hlen) (by simp)]

/-- **C42**. Conversely, a CMEVLA without y is made of the pieces of a cmevla. (With y there may be pieces that are not
rafsi of gismu.) -/
theorem C42_only_cmevla {b : Build} {s : Settings} {w : Str} {ps : List Str} (h : analyseBrivla b s w = .ok (.cmevla, ps))
    (hy : 'y' ∉ reading w) : ps.flatten = reading w ∧ CmevlaPieces s ps := by
  rw [analyseBrivla_program] at h
  obtain ⟨n, hn, h⟩ := analyseR_ok h
  have hn := (normalise_ok hn).2
  subst hn
  generalize ht : BType.cmevla = t at h
  cases h with
  | gismu => cases ht
  | zihevla => cases ht
  | parts _ _ _ _ _ _ _ _ hs => exact absurd (by rw [splitOn_of_not_mem hy]; rfl) hs
  | @kaha c _ hl _ _ _ hk =>
    split at ht
    · rename_i hc
      obtain ⟨c', l, m, hc', rfl, hj, hM, hA, hE, hF, hd⟩ := jvokaha_canon hk
      rw [hl] at hc'
      cases hc'
      rw [hc] at hM hA
      exact ⟨hj, cmevlaPieces_settings (s := kahaSettings s.yHyphens s.consonants s.glides s.allowMz) rfl rfl (made_cmevlaPieces hM hA hE hd hF)⟩
    · cases ht

example : CmevlaPieces {} [s%"sai", s%"zba", s%"tas"] :=
  (C42_only_cmevla (b := .pinned) (w := s%"SAI,zbatas") (by decide +kernel) (by decide)).2
example : analyseBrivla .pinned {} s%"tosmab" = .ok (.cmevla, [s%"tos", s%"mab"]) := by decide +kernel
example : ¬ CmevlaPieces {} [s%"tos", s%"y", s%"mab"] := fun h =>
  h.y [] s%"tos" s%"mab" [] rfl ⟨.inl rfl, by rintro c d ⟨⟩ ⟨⟩ _; decide, by rintro c d e t ⟨⟩ ⟨⟩; decide⟩

end Jvotci
