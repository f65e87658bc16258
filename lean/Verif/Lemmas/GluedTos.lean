import Verif.Lemmas.Glued
import Verif.Lemmas.ExtTos

/-!
# Helper lemmas: a made word keeps its first syllable
-/

namespace Jvotci

open Spec

/-- The word begins with CVC rafsi that meet in initial pairs, up to CVCCV or CVC with y. -/
inductive TosmG : List (Str × Str) → Prop
  | gismu {x a b c d e h t} : pattern x = s%"CVC" → MeetInitial x [a, b, c, d, e] → pattern [a, b, c, d, e] = s%"CVCCV" → InitialPair c d →
      TosmG ((x, []) :: ([a, b, c, d, e], h) :: t)
  | y {x x' g' t} : pattern x = s%"CVC" → MeetInitial x x' → pattern x' = s%"CVC" → g'.head? = some 'y' → TosmG ((x, []) :: (x', g') :: t)
  | step {x x' g' t} : pattern x = s%"CVC" → MeetInitial x x' → TosmG ((x', g') :: t) → TosmG ((x, []) :: (x', g') :: t)

/-- y and a rafsi put behind rafsi that end in a consonant. -/
theorem links_bai {y : YHyphens} {mz : Bool} {ps : List Str} (h : Links y mz ps) (hl : ∃ p, ps.getLast? = some p ∧ Rafsi mz p)
    (hc : ∃ c, ps.flatten.getLast? = some c ∧ Consonant c) : Links y mz (ps ++ [s%"y", s%"bai"]) := by
  have hbai : Rafsi mz s%"bai" := .cvv (by decide) (by decide) (by decide)
  induction ps with
  | nil => obtain ⟨p, hp, -⟩ := hl; cases hp
  | cons p ps ih =>
    cases ps with
    | nil =>
      obtain ⟨p', hl, hr⟩ := hl
      obtain rfl : p = p' := Option.some.inj hl
      refine links_cons.2 ⟨.y hr ?_, links_cons.2 ⟨.afterY (by simp) hbai, links_one⟩⟩
      obtain ⟨l, hl, h1, h2⟩ := rk_last (rafsi_rk hr)
      obtain ⟨c, hc, hcc⟩ := hc
      simp at hc
      rw [hl] at hc
      cases hc
      have hk := rafsi_rk hr
      generalize kindOf p = k at h1 h2 hk
      cases hk <;> simp_all <;> exact absurd hcc (vowel_not_consonant h2)
    | cons q ps =>
      obtain ⟨e1, e2⟩ := links_cons.1 h
      refine links_cons.2 ⟨e1, ih e2 (by simpa using hl) ?_⟩
      obtain ⟨c, hc, hcc⟩ := hc
      refine ⟨c, ?_, hcc⟩
      rw [List.flatten_cons, List.getLast?_append] at hc
      cases hq : ((q :: ps).flatten).getLast? with
      | none =>
        exfalso
        obtain ⟨z, hz, hzr⟩ := hl
        have : z ∈ q :: ps := by
          rw [List.getLast?_cons_cons] at hz
          exact List.mem_of_getLast? hz
        rw [List.getLast?_eq_none_iff, List.flatten_eq_nil_iff] at hq
        exact rafsi_ne hzr (hq z this)
      | some d => rw [hq] at hc; simpa using hc

theorem falls_inv {ps : List Str} (h : FallsApart ps) : ∃ p q v, ps = p :: q :: v ∧ pattern p = s%"CVC" ∧ MeetInitial p q ∧
    ((∃ a b c d e, q = [a, b, c, d, e] ∧ pattern q = s%"CVCCV" ∧ InitialPair c d) ∨ (pattern q = s%"CVC" ∧ ∃ w, v = s%"y" :: w) ∨
      FallsApart (q :: v)) := by
  cases h with
  | gismu h1 h2 h3 h4 => exact ⟨_, _, _, rfl, h1, h2, .inl ⟨_, _, _, _, _, rfl, h3, h4⟩⟩
  | y h1 h2 h3 => exact ⟨_, _, _, rfl, h1, h2, .inr (.inl ⟨h3, _, rfl⟩)⟩
  | more h1 h2 h3 => exact ⟨_, _, _, rfl, h1, h2, .inr (.inr h3)⟩

/-- If the pieces of the first part fall apart, so does the word. -/
theorem glued_falls {s : Settings} {f : Bool} {l : List (Str × Str)} {qs : List YPart} (h : Glued s f l qs) :
    ∀ {p : YPart} {ps : List YPart} {E : List Str}, qs = p :: ps → FallsApart (p.pieces ++ E) →
      E = [] ∨ (E = [s%"y", s%"bai"] ∧ p.trail = false ∧ ps ≠ []) → TosmG l := by
  have one : ∀ {x : Str}, ¬ FallsApart [x] := by
    intro x h
    cases h
  have oneY : ∀ {x : Str}, ¬ FallsApart [x, s%"y", s%"bai"] := by
    intro x h
    have hn : ∀ {x : Str}, ¬ MeetInitial x s%"y" := by
      rintro x ⟨a, b, -, hb, hi⟩
      cases hb
      exact absurd (initial_consonants hi).2 (by decide)
    obtain ⟨p, q, v, e, -, h, -⟩ := falls_inv h
    cases e
    exact hn h
  induction h with
  | last =>
    rintro p ps E ⟨⟩ hf (rfl | ⟨-, -, h⟩)
    · exact absurd hf one
    · exact absurd rfl h
  | zlast =>
    rintro p ps E ⟨⟩ hf (rfl | ⟨-, -, h⟩)
    · exact absurd hf one
    · exact absurd rfl h
  | @bare f x x' g' l p ps hx hd hlk h hk ih =>
    rintro p2 ps2 E ⟨⟩ hf hE
    obtain ⟨hP, x2, g2, t2, p3, v3, e1, e2, e3⟩ := glued_parts h
    cases e1
    cases e2
    cases hpp : p.pieces with
    | nil => rw [hpp] at e3; cases e3
    | cons y v =>
      rw [hpp] at e3
      cases e3
      have ih := @ih p ps E rfl
      rw [hpp] at ih hf
      simp only [List.cons_append] at hf ih
      obtain ⟨_, _, _, e, h1, h2, ⟨a, b, c, d, e', rfl, h3, h4⟩ | ⟨h3, w, h4⟩ | h3⟩ := falls_inv hf
      · cases e; exact .gismu h1 h2 h3 h4
      · cases e
        have hv : v = [] := by
          cases v with
          | nil => rfl
          | cons z v =>
            exfalso
            simp only [List.cons_append, List.cons.injEq] at h4
            obtain ⟨f', l', hp⟩ := parts_mem hP (p := p) (by simp)
            have hny := pseg_noY hp
            cases hp with
            | cvc => simp at hpp
            | rafsi _ e =>
              simp only at hpp
              rw [← e, hpp] at hny
              rw [h4.1] at hny
              exact hny (by simp)
            | whole => simp at hpp
            | cut => simp at hpp
        subst hv
        rcases hE with rfl | ⟨rfl, ht, hps⟩
        · cases h4
        · refine .y h1 h2 h3 ?_
          simp only at ht
          generalize hq : p :: ps = qs at h
          generalize hf : false = f2 at h
          cases h with
          | last => cases hq; exact absurd rfl hps
          | zlast => cases hq; exact absurd rfl hps
          | @bare _ _ x2 g2 l2 p2 ps2 _ _ _ hg _ =>
            cases hq
            obtain ⟨-, x4, g4, t4, p4, v4, e1, e2, e3⟩ := glued_parts hg
            cases e2
            simp at hpp
            rw [hpp] at e3
            cases e3
          | rn => cases hq; simp at hpp
          | sep hq1 hq2 hq3 hq4 =>
            cases hq
            rw [ht]
            rfl
      · cases e; exact .step h1 h2 (ih h3 hE)
  | @rn _ x g x' g' l p ps hx hd hv hg hlk hlk' h hk ih =>
    rintro p2 ps2 E ⟨⟩ hf hE
    exfalso
    have : pattern x = s%"CVC" := by
      obtain ⟨_, _, _, e, h1, -⟩ := falls_inv hf
      cases e
      exact h1
    obtain ⟨a, b, c, rfl, -, -, hc⟩ := tarmi_cvc.1 (pattern_cvc.1 this)
    exact not_vowelRafsi (.inr ((isConsonant_iff c).1 hc)) hv
  | @sep f x x' g' l q p ps hq hc hp h ih =>
    rintro p2 ps2 E ⟨⟩ hf hE
    exfalso
    rw [hp] at hf
    rcases hE with rfl | ⟨rfl, -, -⟩
    · exact one hf
    · exact oneY hf

/-- What is left is read as rafsi. -/
structure Remainder (s : Settings) (rs : List Str) : Prop where
  first : ∃ r, rs.head? = some r ∧ Rafsi s.allowMz r
  links : Links s.yHyphens s.allowMz rs
  last : ∃ r, rs.getLast? = some r ∧ Rafsi s.allowMz r
  not_ccv : 2 ≤ rs.length ∨ pattern rs.flatten ≠ s%"CCV"

theorem remainder_of {s : Settings} {m : Str} (hm : (Rafsi false m ∧ pattern m ≠ s%"CCV") ∨
      ∃ qs, qs.flatten = m ∧ (LujvoPieces { yHyphens := s.yHyphens, allowMz := s.allowMz } qs ∨
        CmevlaPieces { yHyphens := s.yHyphens, allowMz := s.allowMz } qs)) : ∃ rs, Remainder s rs ∧ rs.flatten = m := by
  rcases hm with ⟨h1, h2⟩ | ⟨qs, rfl, h | h⟩
  · have := rafsi_mono (mz := s.allowMz) h1
    exact ⟨[m], ⟨⟨m, rfl, this⟩, links_one, ⟨m, rfl, this⟩, .inr (by simpa using h2)⟩, by simp⟩
  · exact ⟨qs, ⟨h.reading.first, h.reading.links, h.reading.last, .inl h.two⟩, rfl⟩
  · exact ⟨qs, ⟨h.reading.first, h.reading.links, h.reading.last, .inl h.two⟩, rfl⟩

theorem remainder_length {s : Settings} {rs : List Str} (h : Remainder s rs) : 3 ≤ rs.flatten.length := by
  obtain ⟨r, hr, hrr⟩ := h.first
  cases rs with
  | nil => cases hr
  | cons a v => cases hr; have := rafsi_length hrr; simp; omega

theorem remainder_ccv {s : Settings} {rs : List Str} (h : Remainder s rs) {a b c : Char} (hi : InitialPair a b) (hc : Vowel c) :
    rs.flatten ≠ [a, b, c] := by
  intro e
  obtain ⟨h1, -, h3, h4⟩ := h
  rcases h4 with h2 | h2
  · obtain ⟨r, hr, hrr⟩ := h1
    obtain ⟨z, hz, hzr⟩ := h3
    cases rs with
    | nil => cases hr
    | cons x rs =>
    cases rs with
    | nil => simp at h2
    | cons y v =>
      obtain rfl : x = r := Option.some.inj hr
      have h1 := rafsi_length hrr
      have hmem : z ∈ y :: v := by
        rw [List.getLast?_cons_cons] at hz
        exact List.mem_of_getLast? hz
      have h2 := rafsi_length hzr
      have h3 : z.length ≤ (y :: v).flatten.length := by
        obtain ⟨u, w, e⟩ := List.append_of_mem hmem
        rw [e]
        simp
        omega
      have := congrArg List.length e
      rw [List.flatten_cons, List.length_append] at this
      simp at this h3
      omega
  · rw [e] at h2
    refine h2 (pattern_ccv.2 (tarmi_ccv.2 ⟨a, b, c, rfl, (isConsonant_iff a).2 (initial_consonants hi).1,
      (isConsonant_iff b).2 (initial_consonants hi).2, (isVowel_iff c).2 hc⟩))

/-- CVV or CV'V at the beginning of a rafsi. -/
theorem vowelRafsi_front {mz : Bool} {x x0 u v : Str} (hx : VowelRafsi x) (hr : Rafsi mz x0) (e : x0 ++ u = x ++ v) : x0 = x ∧ u = v := by
  have hap : ¬ Consonant '\'' := by decide
  have hav : ¬ Vowel '\'' := by decide
  have hk := rafsi_rk hr
  generalize kindOf x0 = k at hk
  obtain ⟨c, a, b, ha, hb, rfl | rfl⟩ := hx
  · have hna := vowel_not_consonant ha
    have hnb := vowel_not_consonant hb
    cases hk with
    | cvv => simp at e ⊢; exact ⟨⟨e.1, e.2.1, e.2.2.1⟩, e.2.2.2⟩
    | cvhv => simp at e; exact absurd (e.2.2.1 ▸ hb) hav
    | cvc _ _ h' => simp at e; exact absurd (e.2.2.1 ▸ h') hnb
    | ccv h' => simp at e; exact absurd (e.2.1 ▸ (initial_consonants h').2) hna
    | cvcc _ _ h' => simp at e; exact absurd (e.2.2.1 ▸ h'.1) hnb
    | ccvc h' => simp at e; exact absurd (e.2.1 ▸ (initial_consonants h').2) hna
    | cvccv _ _ h' => simp at e; exact absurd (e.2.2.1 ▸ h'.1) hnb
    | ccvcv h' => simp at e; exact absurd (e.2.1 ▸ (initial_consonants h').2) hna
  · have hna := vowel_not_consonant ha
    cases hk with
    | cvv _ _ h' => simp at e; exact absurd (e.2.2.1 ▸ h') hav
    | cvhv => simp at e ⊢; exact ⟨⟨e.1, e.2.1, e.2.2.1⟩, e.2.2.2⟩
    | cvc _ _ h' => simp at e; exact absurd (e.2.2.1 ▸ h') hap
    | ccv h' => simp at e; exact absurd (e.2.1 ▸ (initial_consonants h').2) hna
    | cvcc _ _ h' => simp at e; exact absurd (e.2.2.1 ▸ h'.1) hap
    | ccvc h' => simp at e; exact absurd (e.2.1 ▸ (initial_consonants h').2) hna
    | cvccv _ _ h' => simp at e; exact absurd (e.2.2.1 ▸ h'.1) hap
    | ccvcv h' => simp at e; exact absurd (e.2.1 ▸ (initial_consonants h').2) hna

theorem link_afterRN {y : YHyphens} {mz : Bool} {c : Char} {q : Str} (h : Link y mz [c] q) : Rafsi mz q := by
  generalize eg : [c] = g at h
  cases h with
  | afterY _ h => exact h
  | afterR h _ => exact h
  | afterN h _ => exact h
  | rafsi h => have := rafsi_length h; rw [← eg] at this; simp at this
  | y h => have := rafsi_length h; rw [← eg] at this; simp at this
  | apostropheY _ h => have := rafsi_length h; rw [← eg] at this; simp at this
  | rOrN _ h => have := rafsi_length h; rw [← eg] at this; simp at this

/-- CVV and CV'V do not fall off. -/
theorem glued_vv_off {s : Settings} {l : List (Str × Str)} {p : YPart} {ps : List YPart} (h : Glued s true l (p :: ps)) (hs : Start s l)
    {x : Str} {v rs : List Str} (hx : VowelRafsi x) (hrs : Remainder s rs) (hpv : p.pieces = x :: v) (ev : v.flatten = rs.flatten) : False := by
  generalize hf : true = f at h
  generalize hq : p :: ps = qs at h
  have hlen3 := remainder_length hrs
  cases h with
  | last => cases hf
  | zlast => cases hf
  | @bare _ x0 x' g' t p' _ _ _ hlk h hk' =>
    cases hq
    simp only [List.cons.injEq] at hpv
    obtain ⟨rfl, hpv⟩ := hpv
    obtain ⟨rfl, hc⟩ := hs.vv _ _ _ _ rfl hx
    have hp1 : p'.pieces = [x'] := by
      generalize hff : false = f at h
      generalize hll : [(x', g')] = ll at h
      generalize hqq : p' :: ps = qq at h
      cases h with
      | last => cases hll; cases hqq; rfl
      | zlast => cases hll; cases hqq; rfl
      | bare => cases hll
      | rn => cases hll
      | sep => cases hll
    rw [← hpv, hp1] at ev
    simp only [List.flatten_cons, List.flatten_nil, List.append_nil] at ev
    obtain ⟨a, b, c, rfl, ha, hb, hc⟩ := tarmi_ccv.1 (pattern_ccv.1 hc)
    have hr : Rafsi s.allowMz [a, b, c] := by
      rcases link_cases hlk (by assumption) with ⟨h, -⟩ | ⟨h, -⟩ | ⟨h, -⟩ | ⟨-, h | h⟩
      · exact h
      all_goals cases h
    obtain ⟨hi, -⟩ := rafsi_ccx hr ((isConsonant_iff b).1 hb)
    exact remainder_ccv hrs hi ((isVowel_iff c).1 hc) ev.symm
  | @rn _ x0 g x' g' t p' _ _ _ _ hg hlk hlk' h hk' =>
    cases hq
    simp only [List.cons.injEq] at hpv
    obtain ⟨rfl, hpv⟩ := hpv
    obtain ⟨hP', x2, g2, t2, p2, v2, e1, e2, e3⟩ := glued_parts h
    cases e1
    cases e2
    have hgc : ∃ c, g = [c] ∧ (c = 'r' ∨ c = 'n') := by
      simp at hg
      rcases hg with rfl | rfl
      · exact ⟨'r', rfl, .inl rfl⟩
      · exact ⟨'n', rfl, .inr rfl⟩
    obtain ⟨c, rfl, hc⟩ := hgc
    have hr' := link_afterRN hlk'
    obtain ⟨d, t', rfl, hd⟩ := rafsi_first hr'
    cases hpp : p'.pieces with
    | nil => rw [hpp] at e3; cases e3
    | cons z w =>
      rw [hpp] at e3
      cases e3
      rw [← hpv, hpp] at ev
      obtain ⟨r, hr, hrr⟩ := hrs.first
      cases rs with
      | nil => cases hr
      | cons a rs =>
        cases hr
        simp only [List.flatten_cons, List.cons_append, List.nil_append] at ev
        obtain ⟨y0, y1, u, rfl, -, -⟩ := rafsi_double hrr
        simp only [List.cons_append, List.cons.injEq] at ev
        obtain ⟨rfl, rfl, -⟩ := ev
        exact not_initial_rn hc (rafsi_ccx hrr ((isConsonant_iff _).1 hd)).1
  | @sep _ _ _ _ _ _ p' _ hq' hc hp =>
    cases hq
    rw [hp] at hpv
    cases hpv
    rw [← ev] at hlen3
    simp at hlen3

theorem flatten_last {mz : Bool} {q : Str} {v : List Str} (hq : Rafsi mz q) {x : Str} {c : Char}
    (h : (x ++ (q :: v).flatten).getLast? = some c) : ((q :: v).flatten).getLast? = some c := by
  rw [List.getLast?_append] at h
  have hne : (q :: v).flatten ≠ [] := by
    intro h; rw [List.flatten_eq_nil_iff] at h; exact rafsi_ne hq (h q (by simp))
  cases hg : ((q :: v).flatten).getLast? with
  | none => rw [List.getLast?_eq_none_iff] at hg; exact absurd hg hne
  | some d => rw [hg] at h; simpa using h

/-- If CV falls off, the rafsi meet in initial pairs. -/
theorem falls_of_remainder {s : Settings} {x0 : Str} {v rs : List Str} {a b : Char} (hread : Reading s.yHyphens s.allowMz (x0 :: v))
    (hnoY : 'y' ∉ (x0 :: v).flatten) (hrs : Remainder s rs) (ha : Consonant a) (hb : Vowel b) (hm0 : ConsonantInitial rs.flatten)
    (e : x0 ++ v.flatten = [a, b] ++ rs.flatten) :
    ((∃ c, (x0 :: v).flatten.getLast? = some c ∧ Vowel c) ∧ FallsApart (x0 :: v)) ∨
    ((∃ c, (x0 :: v).flatten.getLast? = some c ∧ Consonant c) ∧ FallsApart (x0 :: v ++ [s%"y", s%"bai"])) := by
  have hlen3 := remainder_length hrs
  have hx0r : Rafsi s.allowMz x0 := by
    obtain ⟨r, hr, hrr⟩ := hread.first
    cases hr
    exact hrr
  obtain ⟨r, hr, hrr⟩ := hrs.first
  obtain ⟨w, hrs0⟩ : ∃ w, rs = r :: w := by
    cases rs with
    | nil => cases hr
    | cons r' w => cases hr; exact ⟨w, rfl⟩
  obtain ⟨c, m', em, hc⟩ : ∃ c m', rs.flatten = c :: m' ∧ Consonant c := by
    cases hrf : rs.flatten with
    | nil => rw [hrf] at hm0; cases hm0
    | cons c m' => rw [hrf] at hm0; exact ⟨c, m', rfl, hm0⟩
  have e0 := e
  rw [em] at e
  obtain ⟨a', b', u, rfl, -, -⟩ := rafsi_double hx0r
  simp only [List.cons_append, List.nil_append, List.cons.injEq] at e
  obtain ⟨rfl, rfl, e⟩ := e
  rcases rafsi_cvx hx0r hb with ⟨z, rfl, hz⟩ | ⟨z, rfl, hz⟩ | ⟨z, rfl, hz⟩ | ⟨z, z', rfl, hz⟩ | ⟨z, z', z'', rfl, hz, hz2⟩
  · simp at e; rw [e.1] at hz; exact absurd hc (vowel_not_consonant hz)
  · simp at e; rw [← e.1] at hc; exact absurd hc (by decide)
  · simp only [List.cons_append, List.nil_append, List.cons.injEq] at e
    obtain ⟨rfl, e⟩ := e
    cases v with
    | nil =>
      simp at e
      subst e
      rw [em] at hlen3
      simp at hlen3
    | cons q v =>
      have hq : Rafsi s.allowMz q := by
        rcases link_cases (links_cons.1 hread.links).1 hx0r with ⟨h, -⟩ | ⟨rfl, -⟩ | ⟨rfl, -⟩ | ⟨h, -⟩
        · exact h
        · exact absurd (by simp) hnoY
        · exact absurd (by simp) hnoY
        · exact absurd h (not_vowelRafsi (.inr hz))
      obtain ⟨y0, hy0, hyc⟩ := reading_lastLetter hread
      have hlk := (links_cons.1 hread.links).2
      have hqc : ((q :: v).flatten).getLast? = some y0 := flatten_last hq (by rw [List.flatten_cons] at hy0; exact hy0)
      rcases hyc with hyc | hyc
      · exact .inl ⟨⟨y0, hy0, hyc⟩, chain_falls ha hb hz hq hlk hrr (hrs0 ▸ hrs.links) (by rw [← hrs0, em, e]) ⟨y0, hqc, hyc⟩⟩
      · have hpl : ∃ z, ((q :: v) : List Str).getLast? = some z ∧ Rafsi s.allowMz z := by
          obtain ⟨z, hz, hzr⟩ := hread.last
          exact ⟨z, by rw [List.getLast?_cons_cons] at hz; exact hz, hzr⟩
        have hrc : (rs.flatten).getLast? = some y0 := by
          rw [em, ← e]
          cases hvf : (q :: v).flatten with
          | nil => rw [hvf] at hqc; cases hqc
          | cons d u => rw [List.getLast?_cons_cons, ← hvf]; exact hqc
        have h1 := links_bai hlk hpl ⟨y0, hqc, hyc⟩
        have h2 := links_bai hrs.links hrs.last ⟨y0, hrc, hyc⟩
        rw [hrs0] at h2
        exact .inr ⟨⟨y0, hy0, hyc⟩, chain_falls ha hb hz hq h1 hrr h2 (by
          show z :: ((q :: v) ++ [s%"y", s%"bai"]).flatten = ((r :: w) ++ [s%"y", s%"bai"]).flatten
          rw [← hrs0, List.flatten_append, List.flatten_append, em, ← e]
          rfl) ⟨'i', by
          show (((q :: v) ++ [s%"y", s%"bai"]).flatten).getLast? = _
          rw [List.flatten_append]; simp, by decide⟩⟩
  · -- CVCC
    exfalso
    cases v with
    | nil =>
      rw [em] at hlen3
      simp at e
      rw [← e.2] at hlen3
      simp at hlen3
    | cons q v =>
      rcases link_cases (links_cons.1 hread.links).1 hx0r with ⟨-, h⟩ | ⟨rfl, -⟩ | ⟨rfl, -⟩ | ⟨h, -⟩
      · exact not_short_cc (.inr ha) (.inl hb) (.inr hz.1) (.inr hz.2.1) h
      · exact hnoY (by simp)
      · exact hnoY (by simp)
      · obtain ⟨x, y, w, hy, hw, e | e⟩ := h <;> cases e
        exact absurd hz.1 (by decide)
  · -- CVCCV
    exfalso
    cases v with
    | nil =>
      simp at e
      obtain ⟨rfl, rfl⟩ := e
      obtain ⟨y0, y1, u, rfl, -, -⟩ := rafsi_double hrr
      rw [hrs0] at em
      simp only [List.flatten_cons, List.cons_append, List.cons.injEq] at em
      obtain ⟨rfl, rfl, -⟩ := em
      have hi := (rafsi_ccx hrr hz.2.1).1
      refine remainder_ccv hrs hi hz2 ?_
      simpa using e0.symm
    | cons q v =>
      rcases link_cases (links_cons.1 hread.links).1 hx0r with ⟨-, h⟩ | ⟨rfl, -⟩ | ⟨rfl, -⟩ | ⟨h, -⟩
      · rcases h with h | h <;> simp at h
      · exact hnoY (by simp)
      · exact hnoY (by simp)
      · obtain ⟨x, y, w, hy, hw, e | e⟩ := h <;> cases e

/-- A part that ends in a consonant has y behind it. -/
theorem parts_consonant {s : Settings} {f : Bool} {p : YPart} {ps : List YPart} (hP : Parts s f (p :: ps)) (hk : p.kind = .rafsi) {c : Char}
    (hc : p.core.getLast? = some c) (hcc : Consonant c) : p.trail = false ∧ ps ≠ [] := by
  have key : ∀ {last}, PSeg s f last p → p.trail = false ∧ last = false := by
    intro last hp
    cases hp with
    | cvc => cases hk
    | @rafsi _ t x ps' _ _ _ _ _ _ hv =>
      simp only at hc
      cases t with
      | true =>
        obtain ⟨d, hd, hdv⟩ := hv (.inl rfl)
        rw [hc] at hd
        cases hd
        exact absurd hcc (vowel_not_consonant hdv)
      | false =>
        cases last with
        | false => exact ⟨rfl, rfl⟩
        | true =>
          obtain ⟨d, hd, hdv⟩ := hv (.inr rfl)
          rw [hc] at hd
          cases hd
          exact absurd hcc (vowel_not_consonant hdv)
    | whole => cases hk
    | cut => cases hk
  cases hP with
  | one hp => have := (key hp).2; cases this
  | cons hp _ => exact ⟨(key hp).1, by simp⟩

/-- The word does not lose its first syllable. -/
theorem glued_fallsOff {s : Settings} {l : List (Str × Str)} {p : YPart} {ps : List YPart} (h : Glued s true l (p :: ps)) (hs : Start s l)
    (ht : ¬ TosmG l) (hk : p.kind = .rafsi) : ¬ FallsOff s p.core := by
  rintro ⟨x, m, e, hx, hm⟩
  obtain ⟨rs, hrs, rfl⟩ := remainder_of hm
  obtain ⟨hP, x0, g0, t0, p', v', el, ep, hx0⟩ := glued_parts h
  cases ep
  obtain ⟨f', last, hseg⟩ := parts_mem hP (p := p) (by simp)
  have hread : Reading s.yHyphens s.allowMz p.pieces ∧ p.pieces.flatten = p.core := by
    cases hseg with
    | cvc => cases hk
    | rafsi h1 h2 => exact ⟨h1, h2⟩
    | whole => cases hk
    | cut => cases hk
  obtain ⟨hread, hflat⟩ := hread
  have hnoY := pseg_noY hseg
  obtain ⟨v, hpv⟩ : ∃ v, p.pieces = x0 :: v := by
    cases hpp : p.pieces with
    | nil => rw [hpp] at hx0; cases hx0
    | cons a v => rw [hpp] at hx0; cases hx0; exact ⟨v, rfl⟩
  rw [hpv] at hflat hread
  rw [← hflat] at hnoY
  have e0 := e
  rw [← hflat, List.flatten_cons] at e
  rcases hx with hx | ⟨hx, hm0⟩
  · obtain ⟨r, hr, hrr⟩ := hread.first
    cases hr
    obtain ⟨rfl, ev⟩ := vowelRafsi_front hx hrr e
    exact glued_vv_off h hs hx hrs hpv ev
  · obtain ⟨a, b, rfl, ha, hb⟩ := pattern_two hx
    rcases falls_of_remainder hread hnoY hrs ha hb hm0 e with ⟨-, hfall⟩ | ⟨⟨c, hc, hcc⟩, hfall⟩
    · exact ht (glued_falls h (E := []) rfl (by rw [hpv]; simpa using hfall) (.inl rfl))
    · rw [hflat] at hc
      exact ht (glued_falls h (E := [s%"y", s%"bai"]) rfl (by rw [hpv]; exact hfall) (.inr ⟨rfl, parts_consonant hP hk hc hcc⟩))

end Jvotci
