import Verif.Lemmas.ForceYWords
import Verif.Props.Exceptions
import Verif.Props.ZihevlaWords

/-!
# C65: FORCE_Y makes zi'evla of lujvo with r and n

README, `y_hyphens`: "FORCE_Y: y-hyphens are always used instead of r- & n-hyphens (which create zi'evla instead)".
-/

namespace Jvotci

open Spec

/-- **C65**. With FORCE_Y no lujvo has an r or n hyphen. -/
theorem C65_no_r_n {b : Build} {s : Settings} {w : Str} {ps : List Str} (hs : s.yHyphens = .forceY)
    (h : analyseBrivla b s w = .ok (.lujvo, ps)) : s%"r" ∉ ps ∧ s%"n" ∉ ps := by
  obtain ⟨-, hl⟩ := C41_only_lujvo h
  have key : ∀ {g : Str}, g ∈ [s%"r", s%"n"] → g ∉ ps := by
    intro g hh hm
    have hlen : ¬ Rafsi s.allowMz g := by
      intro hr
      have := (rafsi_length hr).1
      simp at hh
      rcases hh with rfl | rfl <;> simp at this
    obtain ⟨u, v, rfl⟩ := List.append_of_mem hm
    cases hu : u.getLast? with
    | none =>
      simp at hu
      subst hu
      obtain ⟨p, hp, hr⟩ := hl.reading.first
      cases hp
      exact hlen hr
    | some p =>
      obtain ⟨u', rfl⟩ := List.getLast?_eq_some_iff.1 hu
      have := hl.reading.links u' p g v (by simp)
      cases this with
      | rafsi _ hr => exact hlen hr
      | y => simp at hh
      | apostropheY => simp at hh
      | rOrN hy => exact hy hs
      | afterY _ hr => exact hlen hr
      | afterR hr => exact hlen hr
      | afterN hr => exact hlen hr
  exact ⟨key (by simp), key (by simp)⟩

/-- **C65**. A lujvo (STANDARD or ALLOW_Y) with r or n behind its first rafsi, without y and without mz before a consonant, is a zi'evla with
FORCE_Y: `analyse_brivla` returns `(ZIhEVLA, [w])`. -/
theorem C65_zihevla {s : Settings} {w p h : Str} {qs : List Str} (ha : analyseBrivla .linked s w = .ok (.lujvo, p :: h :: qs))
    (hh : h = s%"r" ∨ h = s%"n") (hy : 'y' ∉ reading w) (hmz : ∀ c, Consonant c → ¬ Occurs ['m', 'z', c] (reading w)) (hlen : w.length < 10 ^ 93) :
    analyseBrivla .linked { s with yHyphens := .forceY } w = .ok (.zihevla, [reading w]) := by
  obtain ⟨e, hl⟩ := C41_only_lujvo ha
  have hlk := hl.reading.links [] p h qs rfl
  obtain ⟨x, rfl, hx⟩ : ∃ x, h = [x] ∧ (x = 'r' ∨ x = 'n') := by
    rcases hh with rfl | rfl
    · exact ⟨'r', rfl, .inl rfl⟩
    · exact ⟨'n', rfl, .inr rfl⟩
  have hxc : Consonant x := by rcases hx with rfl | rfl <;> decide
  obtain ⟨hpr, hpv⟩ : Rafsi s.allowMz p ∧ VowelRafsi p := by
    generalize hg : [x] = g at hlk
    have hlen : ¬ Rafsi s.allowMz g := by
      intro hr
      have := (rafsi_length hr).1
      subst hg
      simp at this
    cases hlk with
    | rafsi _ hr => exact absurd hr hlen
    | y => rcases hx with rfl | rfl <;> cases hg
    | apostropheY => cases hg
    | rOrN _ hr hv => exact ⟨hr, hv⟩
    | afterY _ hr => exact absurd hr hlen
    | afterR hr => exact absurd hr hlen
    | afterN hr => exact absurd hr hlen
  obtain ⟨q, qs, rfl⟩ : ∃ q t, qs = q :: t := by
    cases qs with
    | nil =>
      obtain ⟨z, hz, hzr⟩ := hl.reading.last
      cases hz
      have := (rafsi_length hzr).1
      simp at this
    | cons q t => exact ⟨q, t, rfl⟩
  obtain ⟨hq, hqp, -⟩ := link_after_rn hx (hl.reading.links [p] [x] q qs rfl)
  obtain ⟨d, q', eq, hd⟩ := rafsi_first hq
  have hdc := (isConsonant_iff d).1 hd
  -- the word
  have hblk : Blk s.allowMz (reading w) := by
    rw [← e] at hy hmz ⊢
    exact pieces_blk hl.reading.links hpr hl.reading.diphthongs hl.reading.last hl.vowel hy hmz
  have hS := blk_sounds hblk
  generalize hrw : reading w = v at *
  have hv : v = p ++ x :: d :: (q' ++ qs.flatten) := by rw [← e, eq]; simp
  have hnp : ¬ InitialPair x d := by
    have : ∀ pr ∈ initialPairs, pr[0]? ≠ some 'r' ∧ pr[0]? ≠ some 'n' := by decide
    intro hi
    have := this _ hi
    rcases hx with rfl | rfl <;> simp at this
  obtain ⟨c, a, p', hpe, hcc, hav, hp3⟩ : ∃ c a p', p = c :: a :: p' ∧ Consonant c ∧ Vowel a ∧ (p' = [] → False) ∧ (p'.filter (fun c => Consonant c)) = [] ∧
      (∀ e, p'.getLast? = some e → Vowel e) ∧ ((∃ b, p' = [b] ∧ Vowel b) ∨ ∃ b, p' = ['\'', b] ∧ Vowel b) := by
    obtain ⟨c, a, b, ha', hb', rfl | rfl⟩ := hpv
    · have hc := rafsi_initial hpr
      refine ⟨c, a, [b], rfl, hc, ha', by simp, ?_, by simpa using hb', .inl ⟨b, rfl, hb'⟩⟩
      simp [show ¬ Consonant b from fun h => vowel_not_consonant hb' h]
    · have hc := rafsi_initial hpr
      refine ⟨c, a, ['\'', b], rfl, hc, ha', by simp, ?_, by simpa using hb', .inr ⟨b, rfl, hb'⟩⟩
      simp [show ¬ Consonant b from fun h => vowel_not_consonant hb' h, show ¬ Consonant '\'' by decide]
  obtain ⟨hp0, hpf, -, hp3⟩ := hp3
  have hac : ¬ Consonant a := fun h => vowel_not_consonant hav h
  have h94 : w.length < 10 ^ 94 := Nat.lt_of_lt_of_le hlen (Nat.pow_le_pow_right (by decide) (by decide))
  rw [C45_zihevla h94, hrw]
  refine ⟨rfl, ⟨hS, ?_, ?_, ?_⟩, ?_, ?_, ?_, ?_⟩
  · rw [← e]; exact hl.vowel
  · obtain ⟨u, a1, b1, t, hr, h1, -⟩ := run_around (P := Consonant) (p := p) (m := [x, d]) (s := q' ++ qs.flatten) (by simp) (by simp [hxc, hdc])
    refine ⟨u, a1 ++ [x, d] ++ b1, t, ?_, by simp; omega, ?_⟩
    · rw [hv]
      simpa using hr
    · have hf : (p.filter (fun c => Consonant c)).length = 1 := by rw [hpe]; simp [hcc, hac, hpf]
      rw [h1, List.filter_append, List.length_append] at hf
      omega
  · obtain ⟨k, n, w0, e0, hk, hn, hm⟩ := hblk
    obtain ⟨m, hm2, hs⟩ := block_syllables hk hn hm
    refine ⟨m, by rw [e0]; exact hs _, ?_⟩
    by_cases hw0 : w0 = []
    · exfalso
      subst hw0
      rw [List.append_nil] at e0
      have hk2 : k.length ≤ 2 := by rcases hk with ⟨_, rfl, -⟩ | ⟨_, _, rfl, -⟩ <;> simp
      have h1 : x ∈ v.drop 2 := by rw [hv, hpe]; simp
      have h2 : x ∈ n := by
        rw [e0, List.drop_append] at h1
        rcases List.mem_append.1 h1 with h1 | h1
        · rw [List.drop_eq_nil_of_le hk2] at h1; cases h1
        · exact List.mem_of_mem_drop h1
      exact nuclei_noConsonant hn x h2 hxc
    · simpa [hw0] using hm2
  · intro hg
    have h1 : v.length = 5 := by cases hg <;> rfl
    have hq3 := (rafsi_length hq).1
    rw [eq] at hq3
    rw [hv, hpe] at h1
    simp at h1 hq3
    have : p' ≠ [] := fun h => hp0 h
    have := List.length_pos_iff.2 this
    omega
  · exact fun qs' hq' => forceY_unread hpe hcc hav hp3 hnp hdc (hv ▸ hy) hq'.reading ∘ (fun h => h.trans hv)
  · intro u t e1 hu ht hadj
    have hut : t = x :: d :: (q' ++ qs.flatten) := by
      rw [hv] at e1
      exact cut_behind_first hpe hcc hav hp3 hxc hdc e1 hu ht hadj
    have hty : 'y' ∉ t := by
      intro h; rw [e1] at hy; exact hy (List.mem_append_right _ h)
    have htr : reading t = t := by
      refine reading_lettersY fun c hc => ?_
      rcases hS.letters c (by rw [e1]; exact List.mem_append_right _ hc) with h | h | h
      · exact .inl h
      · exact .inr (.inl h)
      · exact .inr (.inr (.inl h))
    rcases C15_words_without_y_partial .linked { yHyphens := .forceY } (w := t) (by rw [hut]; simp) (by rwa [htr]) with ⟨-, r, hr⟩ | ⟨h, -⟩
    · cases r with
      | false => exact hr
      | true =>
        exfalso
        have hdv : ¬ Vowel d := fun h => vowel_not_consonant h hdc
        rcases word_cases (by rwa [htr]) hr with h | ⟨ps, h1, h2⟩ | h
        · rw [htr] at h
          exact hnp (rafsi_pair_initial (.gismu h) hut hdv)
        · rw [htr] at h2
          exact hnp (lujvo_pair_initial h1.reading (h2.trans hut) hdv)
        · have ht94 : t.length < 10 ^ 94 := by
            have h1 := reading_length w
            rw [hrw, e1, List.length_append] at h1
            have h2 : 10 ^ 94 = 10 * 10 ^ 93 := by rw [Nat.pow_succ, Nat.mul_comm]
            omega
          have := ((C45_zihevla ht94).1 h).2.1.sounds
          rw [htr] at this
          exact hnp (sounds_pair_initial this hut hxc hdc)
    · cases h
  · intro _ qs' hq' e1
    rw [hv, hpe] at e1
    exact to_unread hcc hav hq'.reading hq'.two e1

-- the example of README; and one with other options
example : analyseBrivla .linked { yHyphens := .allowY } s%"re'enre'e" = .ok (.lujvo, [s%"re'e", s%"n", s%"re'e"]) := by decide +kernel
example : 'y' ∉ reading s%"re'enre'e" ∧ reading s%"re'enre'e" = s%"re'enre'e" := by decide
example : analyseBrivla .linked { yHyphens := .forceY } s%"re'enre'e" = .ok (.zihevla, [s%"re'enre'e"]) := by decide +kernel
example : analyseBrivla .linked { yHyphens := .forceY } s%"rai'ymlatu" = .ok (.lujvo, [s%"rai", s%"'y", s%"mlatu"]) := by decide +kernel
example : analyseBrivla .linked { glides := true, allowMz := true } s%"soirsai" = .ok (.lujvo, [s%"soi", s%"r", s%"sai"]) := by decide +kernel
example : analyseBrivla .linked { yHyphens := .forceY, glides := true, allowMz := true } s%"soirsai" = .ok (.zihevla, [s%"soirsai"]) := by decide +kernel
-- the hypotheses are needed: r further back, y, mz before a consonant
example : analyseBrivla .linked {} s%"dumroirtobro" = .ok (.lujvo, [s%"dum", s%"roi", s%"r", s%"tobro"]) := by decide +kernel
example : analyseBrivla .linked { yHyphens := .forceY } s%"dumroirtobro" = .error .notBrivla := by decide +kernel
example : analyseBrivla .linked { allowMz := true } s%"jairdomzga" = .ok (.lujvo, [s%"jai", s%"r", s%"dom", s%"zga"]) := by decide +kernel
example : analyseBrivla .linked { yHyphens := .forceY, allowMz := true } s%"jairdomzga" = .error .notBrivla := by decide +kernel

end Jvotci
