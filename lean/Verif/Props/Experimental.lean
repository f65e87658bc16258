import Verif.Lemmas.CmavoWord
import Verif.Props.Extended
import Verif.Props.Lujvo
import Verif.Props.ZihevlaWords

/-!
# C64: every cmavo shape can be a rafsi

README, `exp_rafsi_shapes`: "Any cmavo shape without a y can be a short rafsi." `Spec.CmavoShape` says what a cmavo shape
is.
-/

namespace Jvotci

open Spec

/-- **C64**. With `exp_rafsi_shapes=True` any cmavo shape without y can be a rafsi: if the word is a gismu without its last vowel,
y (y' before a vowel that is not an on-glide) and a cmavo `x` not of a CLL rafsi shape, `analyse_brivla` returns
`(EXTENDED_LUJVO, [stem, "y" or "y'", x])`, whatever the other options. -/
theorem C64_cmavo {s : Settings} {m x : Str} {c : Char} (hs : s.expRafsi = true) (hg : Gismu s.allowMz (m ++ [c])) (hx : CmavoShape x)
    (hv : ¬ VowelRafsi x) (hlen : x.length < 10 ^ 92) :
    analyseBrivla .linked s (m ++ yBefore x ++ x) = .ok (.extendedLujvo, [m, yBefore x, x]) := by
  obtain ⟨hmr, hm4, -, -⟩ := gismu_cut hg
  obtain ⟨hml, hmi, hmv⟩ := stem_letters hg
  obtain ⟨-, d, hd, hdc⟩ := cut_pattern hg
  obtain ⟨hxl, hxt, ⟨a, ha, hac⟩, ⟨b, hb, hbv⟩⟩ := cmavo_letters hx
  have hxne : x ≠ [] := by rintro rfl; cases ha
  have hly : (yBefore x).length ≤ 2 := by
    unfold yBefore
    rcases leading_cases x with ⟨e, -⟩ | ⟨e, -⟩ <;> rw [e] <;> simp
  have hb92 : m.length + (yBefore x).length + x.length < 10 ^ 93 := by
    have : (10 : Nat) ^ 93 = 10 * 10 ^ 92 := by rw [Nat.pow_succ, Nat.mul_comm]
    omega
  have hnoY : 'y' ∉ x := by
    intro h
    rcases hxl _ h with h | h | h <;> revert h <;> decide
  have hmnoY : 'y' ∉ m := by
    intro h
    rcases hml _ h with h | h <;> revert h <;> decide
  obtain ⟨lead, hlead, hcase⟩ : ∃ lead : Bool, leading false x = (if lead then s%"'" else []) ∧
      ((lead = true ∧ VowelInitial x ∧ ¬ Onglide x) ∨ (lead = false ∧ ¬ (VowelInitial x ∧ ¬ Onglide x))) := by
    rcases leading_cases x with ⟨e, h⟩ | ⟨e, h⟩
    · exact ⟨true, by simpa using e, .inl ⟨rfl, h⟩⟩
    · exact ⟨false, by simpa using e, .inr ⟨rfl, h⟩⟩
  have hword : m ++ yBefore x ++ x = joinParts [⟨false, m, false, .rafsi, [m]⟩, ⟨lead, x, false, .exp, [x]⟩] := by
    simp [joinParts, YPart.text, yBefore, hlead]
  rw [C47_extended (by simpa [Nat.add_assoc] using hb92)]
  refine ⟨[⟨false, m, false, .rafsi, [m]⟩, ⟨lead, x, false, .exp, [x]⟩], ?_, ?_, ?_⟩
  · rw [cmavo_word_letters hg hx, hword]
  · simp [joinPieces, yBefore, hlead]
  have hdm : Diph m := diph_long (by omega)
  have hread : Reading s.yHyphens s.allowMz [m] := reading_oneRafsi hmr hdm
  refine ⟨by simp, ?_, .inl (.inl ⟨⟨false, m, false, .rafsi, [m]⟩, List.mem_cons_self, .inr ⟨rfl, m, List.mem_cons_self, hmv⟩⟩), ?_, ?_, ?_, ?_⟩
  · intro u p v e
    match u, e with
    | [], e =>
      cases e
      refine ⟨by simp, fun _ => .inr hmi, hmnoY, ?_, by simp, ?_⟩
      · rw [hd]
        rintro ⟨⟩
        revert hdc; decide
      · refine ⟨hread, by simp, ?_, ?_, ?_, ?_, fun _ => stem_noFall hm4⟩
        · intro e
          have := congrArg List.length e
          simp [pattern] at this
          omega
        · intro _ _
          exact ⟨d, hd, hdc⟩
        · intro _ qs hq e
          have hl : qs.flatten.length ≤ 5 := by rw [e]; simp [hm4]
          have := reading_single hq.reading hl
          have h2 := hq.two
          rw [this] at h2
          simp at h2
        · intro _ _ h
          cases h
    | [_], e =>
      cases e
      refine ⟨?_, ?_, hnoY, ?_, by simp, ?_⟩
      · intro hl
        refine ⟨rfl, ?_⟩
        rcases hcase with ⟨-, hvi, hno⟩ | ⟨h, -⟩
        · obtain ⟨o, n, e, hn, ho⟩ := hx
          obtain rfl : o = [] := by
            rcases ho with h | ⟨c, hc, rfl⟩ | rfl | rfl
            · exact h
            · subst e
              exact absurd hc (fun h => vowel_not_consonant hvi h)
            · subst e
              obtain ⟨-, ⟨a, ha, hav⟩, -⟩ := nuclei_letters hn
              cases n with
              | nil => cases ha
              | cons a' n => cases ha; exact absurd ⟨.inl rfl, hav⟩ hno
            · subst e
              obtain ⟨-, ⟨a, ha, hav⟩, -⟩ := nuclei_letters hn
              cases n with
              | nil => cases ha
              | cons a' n => cases ha; exact absurd ⟨.inr rfl, hav⟩ hno
          rw [List.nil_append] at e
          subst e
          cases hn with
          | one hn =>
            obtain ⟨h1, -, h3⟩ := nucleus_all hn
            refine ⟨x, [], [x], ⟨by simp, h1, h3, by simp, by simp⟩, by simp, .one (.inl hn), ?_⟩
            intro h e
            cases e
            exact nucleus_glided hn
          | @more n t hn ht =>
            obtain ⟨h1, -, h3⟩ := nucleus_all hn
            refine ⟨n, '\'' :: t, [n], ⟨by simp, h1, h3, by simp, ?_⟩, by simp, .one (.inl hn), ?_⟩
            · intro c hc
              cases hc
              decide
            · intro h e
              cases e
              exact nucleus_glided hn
        · rw [h] at hl; cases hl
      · intro hl
        rcases hcase with ⟨h, -⟩ | ⟨-, h⟩
        · rw [h] at hl; cases hl
        · simp only [List.isEmpty_cons, Bool.false_eq_true, if_false]
          by_cases ho : Onglide x
          · exact .inr ho
          · left
            cases x with
            | nil => cases ha
            | cons a' x =>
              cases ha
              rcases hac with hac | hac
              · exact absurd ⟨hac, ho⟩ h
              · exact hac
      · rw [hb]
        rintro ⟨⟩
        revert hbv; decide
      · refine ⟨rfl, hs, ?_, cmavo_unreadable hx hv, cmavo_sounds hx, ⟨b, hb, hbv⟩, hxt, cmavo_one hx⟩
        rintro (⟨-, h⟩ | ⟨h, -⟩) <;> cases h
    | _ :: _ :: _, e => simp at e
  · refine ⟨b, ?_, hbv⟩
    rw [← hword, List.getLast?_append, hb]
    rfl
  · rintro a' b' c' v - hc' e
    rw [← hword] at e
    match m, hm4 with
    | [m1, m2, m3, m4], _ =>
      cases e
      rcases hml '\'' (by simp) with h | h <;> revert h <;> decide
  · intro qs hq
    rw [← hword]
    exact cmavo_notLujvo hx hv [] hq
  · intro _ qs hq
    rw [← hword]
    exact cmavo_notLujvo hx hv s%"to" hq

/-- **C64**. If the cmavo is of a CLL rafsi shape, the word is a lujvo, with or without the option. -/
theorem C64_cll {s : Settings} {m x : Str} {c : Char} (hg : Gismu s.allowMz (m ++ [c])) (hx : CmavoShape x) (hv : VowelRafsi x)
    (hc : ConsonantInitial x) : analyseBrivla .linked s (m ++ s%"y" ++ x) = .ok (.lujvo, [m, s%"y", x]) := by
  obtain ⟨hmr, hm4, -, -⟩ := gismu_cut hg
  obtain ⟨hml, hmi, hmv⟩ := stem_letters hg
  obtain ⟨hxl, hxt, -, ⟨b, hb, hbv⟩⟩ := cmavo_letters hx
  obtain ⟨hxr, hxd⟩ := cmavo_rafsi (mz := s.allowMz) hx hv hc
  have hno : leading false x = [] := by
    rcases leading_cases x with ⟨-, h, -⟩ | ⟨e, -⟩
    · cases x with
      | nil => cases hc
      | cons a x => exact absurd hc (fun h' => vowel_not_consonant h h')
    · exact e
  have hw : reading (m ++ s%"y" ++ x) = [m, s%"y", x].flatten := by
    have := cmavo_word_letters hg hx
    unfold yBefore at this
    rw [hno, List.append_nil] at this
    rw [this]
    simp
  have hx5 := (rafsi_length hxr).2
  refine C41_every_lujvo hw ?_ ?_
  · refine ⟨⟨⟨m, rfl, hmr⟩, ⟨x, rfl, hxr⟩, ?_, ?_, ?_⟩, by simp, ⟨b, ?_, hbv⟩, ?_, ?_, ?_, ?_, ?_⟩
    · intro p hp
      simp at hp
      rcases hp with rfl | rfl | rfl
      · exact diph_long (by omega)
      · intro c a b e; cases e
      · exact hxd
    · intro u p q v e
      match u, e with
      | [], e => cases e; exact .y hmr (by omega)
      | [_], e => cases e; exact .afterY (by simp) hxr
      | _ :: _ :: [], e => simp at e
      | _ :: _ :: _ :: _, e => simp at e
    · intro a b c v _ e
      cases e
    · simp [List.getLast?_append, List.getLast?_cons, hb]
    · intro p q v e h
      cases e
      exact absurd h hmv
    · intro u p q v e
      left
      match u, e with
      | [], e =>
        cases e
        rintro ⟨h | ⟨-, h⟩, -⟩
        · omega
        · rcases hml _ h with h | h <;> revert h <;> decide
      | [_], e => simp at e
      | _ :: _ :: [], e => simp at e
      | _ :: _ :: _ :: _, e => simp at e
    · intro u p q v e
      match u, e with
      | [], e => simp at e
      | [_], e => simp at e
      | _ :: _ :: [], e => simp at e
      | _ :: _ :: _ :: _, e => simp at e
    · intro h
      obtain ⟨p, q, v, e, hp, -⟩ := falls_inv h
      cases e
      have := congrArg List.length hp
      simp [pattern] at this
      omega
    · intro _
      refine ⟨m, by simp, .inr (.inr ⟨?_, hmv⟩)⟩
      intro h
      have : ∀ h, Hyphen h → h.length ≤ 3 := by
        intro h hh
        unfold Hyphen at hh
        simp at hh
        rcases hh with rfl | rfl | rfl | rfl | rfl | rfl <;> simp
      have := this m h
      omega
  · simp only [List.flatten_cons, List.flatten_nil, List.length_append, List.length_cons, List.length_nil, List.append_nil]
    have : 10 < 10 ^ 96 := by decide
    omega

/-- **C64**. Without `exp_rafsi_shapes` no such word is accepted. -/
theorem C64_option {s : Settings} {m x : Str} {c : Char} (hs : s.expRafsi = false) (hg : Gismu s.allowMz (m ++ [c])) (hx : CmavoShape x)
    (hv : ¬ VowelRafsi x) (hlen : x.length < 10 ^ 92) (t : BType) (ps : List Str) :
    analyseBrivla .linked s (m ++ yBefore x ++ x) ≠ .ok (t, ps) := by
  obtain ⟨hmr, hm4, -, -⟩ := gismu_cut hg
  obtain ⟨hml, hmi, hmv⟩ := stem_letters hg
  obtain ⟨hxl, hxt, ⟨a, ha, hac⟩, ⟨b, hb, hbv⟩⟩ := cmavo_letters hx
  have hly : (yBefore x).length ≤ 2 := by
    unfold yBefore
    rcases leading_cases x with ⟨e, -⟩ | ⟨e, -⟩ <;> rw [e] <;> simp
  have hb92 : (m ++ yBefore x ++ x).length < 10 ^ 93 := by
    have : (10 : Nat) ^ 93 = 10 * 10 ^ 92 := by rw [Nat.pow_succ, Nat.mul_comm]
    simp only [List.length_append]
    omega
  have hread := cmavo_word_letters hg hx
  have hlast : (m ++ yBefore x ++ x).getLast? = some b := by rw [List.getLast?_append, hb]; rfl
  have hy : 'y' ∈ m ++ yBefore x ++ x := by simp [yBefore]
  have hnoY : 'y' ∉ x := by
    intro h
    rcases hxl _ h with h | h | h <;> revert h <;> decide
  intro h
  cases t with
  | gismu =>
    have hG := (C03_gismu_iff.1 h).2.1
    rw [hread] at hG
    exact rafsi_noY (.gismu hG) hy
  | zihevla =>
    have h94 : (m ++ yBefore x ++ x).length < 10 ^ 94 := Nat.lt_of_lt_of_le hb92 (Nat.pow_le_pow_right (by decide) (by decide))
    have hz := ((C45_zihevla h94).1 h).2.1.sounds
    rw [hread] at hz
    rcases hz.letters _ hy with h | h | h <;> revert h <;> decide
  | lujvo =>
    obtain ⟨e, hl⟩ := C41_only_lujvo h
    rw [hread] at e
    exact cmavo_notLujvo hx hv [] hl e
  | cmevla =>
    rcases C49_only_cmevla hb92 h with ⟨e, hc⟩ | ⟨qs, e, -, hc⟩
    · obtain ⟨d, hd, hdc⟩ := hc.consonant
      rw [e, hread, hlast] at hd
      cases hd
      exact vowel_not_consonant hbv hdc
    · obtain ⟨d, hd, hdc⟩ := hc.consonant
      rw [e, hread, hlast] at hd
      cases hd
      exact vowel_not_consonant hbv hdc
  | extendedLujvo =>
    obtain ⟨qs, e, -, hE⟩ := (C47_extended hb92).1 h
    rw [hread] at e
    obtain ⟨u, p, rfl⟩ : ∃ u p, qs = u ++ [p] := by
      cases hq : qs.getLast? with
      | none =>
        simp at hq
        have := hE.two
        rw [hq] at this
        simp at this
      | some p => obtain ⟨u, e⟩ := List.getLast?_eq_some_iff.1 hq; exact ⟨u, p, e⟩
    have hu : u ≠ [] := by
      rintro rfl
      have := hE.two
      simp at this
    have hp := hE.parts u p [] rfl
    have hue : u.isEmpty = false := by simpa using hu
    rw [hue] at hp
    have htr : p.trail = false := by
      cases h : p.trail with
      | false => rfl
      | true => have := (hp.trail h).1; simp at this
    rw [joinParts_last hu] at e
    have hsplit : p.text = leading false x ++ x := by
      have h1 : 'y' ∉ p.text := by
        unfold YPart.text
        rw [htr]
        have := hp.noY
        cases p.lead <;> simp [this]
      have h2 : 'y' ∉ leading false x ++ x := by
        rcases leading_cases x with ⟨e, -⟩ | ⟨e, -⟩ <;> rw [e] <;> simp [hnoY]
      have e' : joinParts u ++ ['y'] ++ p.text = m ++ ['y'] ++ (leading false x ++ x) := by
        rw [e]; simp [yBefore]
      exact y_split h1 h2 e'
    have hcore : p.core = x := by
      unfold YPart.text at hsplit
      rw [htr] at hsplit
      rcases leading_cases x with ⟨e, -⟩ | ⟨e, -⟩ <;> rw [e] at hsplit <;> cases hl : p.lead <;> rw [hl] at hsplit
      · have hst := hp.start hl
        have hsp : p.core = '\'' :: x := by simpa using hsplit
        rw [hsp] at hst
        simp at hst
        rcases hst with h | h
        · exact absurd (show Consonant '\'' from h) (by decide)
        · cases x with
          | nil => exact absurd h id
          | cons c x => exact absurd h.1 (by decide)
      · simpa using hsplit
      · simpa using hsplit
      · have hsp : '\'' :: p.core = x := by simpa using hsplit
        rw [← hsp] at ha
        cases ha
        exfalso
        rcases hac with h | h <;> revert h <;> decide
    have hk := hp.kind
    cases hkk : p.kind with
    | cvc =>
      rw [hkk] at hk
      obtain ⟨a1, a2, a3, e3, -, -, hc3⟩ := tarmi_cvc.1 (pattern_cvc.1 hk.1)
      rw [hcore] at e3
      rw [e3] at hb
      cases hb
      exact vowel_not_consonant hbv ((isConsonant_iff _).1 hc3)
    | rafsi =>
      rw [hkk] at hk
      exact cmavo_unreadable hx hv _ hk.reading (by rw [hk.core, hcore])
    | zihevla =>
      rw [hkk] at hk
      obtain ⟨u', ch, t', hr, hl, -⟩ := hk.cluster
      have hw : p.whole true = x := by
        unfold YPart.whole
        rw [if_neg (by simp), hcore]
      simp only [List.isEmpty_nil] at hr
      rw [hw] at hr
      match ch, hl, hr with
      | c1 :: c2 :: ch, _, hr =>
        refine hxt c2 ?_ (hr.all c2 (by simp))
        rw [hr.eq]
        have := tail_append_mem (u := u') (t := ch ++ t') (a := c1) (b := c2)
        simpa using this
    | exp =>
      rw [hkk] at hk
      have := hk.option
      rw [hs] at this
      cases this

-- the example of README, with the option and without; a vowel has an apostrophe before it, an on-glide none
example : CmavoShape s%"fa'u'u" :=
  ⟨s%"f", s%"a'u'u", rfl, .more (n := s%"a") (t := s%"u'u") (by decide) (.more (n := s%"u") (t := s%"u") (by decide) (.one (by decide))),
    .inr (.inl ⟨'f', by decide, rfl⟩)⟩
example : CmavoShape s%"iai'o" ∧ CmavoShape s%"au" :=
  ⟨⟨s%"i", s%"ai'o", rfl, .more (n := s%"ai") (t := s%"o") (by decide) (.one (by decide)), .inr (.inr (.inl rfl))⟩,
    ⟨[], s%"au", rfl, .one (by decide), .inl rfl⟩⟩
example : ¬ VowelRafsi s%"fa'u'u" := by
  rintro ⟨c, a, b, -, -, h | h⟩ <;> cases h
example : Gismu false (s%"mlat" ++ ['u']) := .ccvcv (by decide) (by decide) (by decide) (by decide)
example : yBefore s%"fa'u'u" = s%"y" ∧ yBefore s%"iai'o" = s%"y" ∧ yBefore s%"au" = s%"y'" := by decide
example : analyseBrivla .linked { expRafsi := true } s%"mlatyfa'u'u" = .ok (.extendedLujvo, [s%"mlat", s%"y", s%"fa'u'u"]) := by decide +kernel
example : analyseBrivla .linked {} s%"mlatyfa'u'u" = .error .notBrivla := by decide +kernel
example : analyseBrivla .linked { expRafsi := true } s%"mlaty'au" = .ok (.extendedLujvo, [s%"mlat", s%"y'", s%"au"]) := by decide +kernel
-- a shape with y is none: the option does not help
example : analyseBrivla .linked { expRafsi := true } s%"mlatyby" = .error .notBrivla := by decide +kernel

end Jvotci
