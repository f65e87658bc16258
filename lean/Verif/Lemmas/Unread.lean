import Verif.Lemmas.Segregate
import Verif.Lemmas.Exchange

/-!
# Helper lemmas: a zi'evla cannot be read as rafsi
-/

namespace Jvotci

open Spec

theorem links_tail {y : YHyphens} {mz : Bool} {p : Str} {v : List Str} (h : Links y mz (p :: v)) : Links y mz v :=
  fun u a b t e => h (p :: u) a b t (by rw [e]; rfl)

/-- Every piece is a rafsi or hyphen. -/
theorem links_pieces {y : YHyphens} {mz : Bool} : ∀ {v : List Str} {p : Str}, Rafsi mz p ∨ Hyphen p → Links y mz (p :: v) →
    ∀ q ∈ p :: v, Rafsi mz q ∨ q ∈ [s%"r", s%"n", s%"y", s%"'y"] ∨ q = p := by
  intro v
  induction v with
  | nil => intro p _ _ q hq; simp at hq; exact .inr (.inr hq)
  | cons q v ih =>
    intro p _ hl r hr
    rcases List.mem_cons.1 hr with rfl | hr
    · exact .inr (.inr rfl)
    · have hq : Rafsi mz q ∨ q ∈ [s%"r", s%"n", s%"y", s%"'y"] := by
        cases (links_cons.1 hl).1 with
        | rafsi _ h => exact .inl h
        | y => exact .inr (by simp)
        | apostropheY => exact .inr (by simp)
        | rOrN _ _ _ h => right; simp at h; rcases h with rfl | rfl <;> simp
        | afterY _ h => exact .inl h
        | afterR h => exact .inl h
        | afterN h => exact .inl h
      rcases ih (hq.imp id (fun h => by unfold Hyphen; simp at h ⊢; rcases h with h | h | h | h <;> simp [h])) (links_cons.1 hl).2 r hr with h | h | rfl
      · exact .inl h
      · exact .inr (.inl h)
      · exact hq.imp id .inl

theorem reading_pieces' {y : YHyphens} {mz : Bool} {ps : List Str} (h : Reading y mz ps) :
    ∀ q ∈ ps, Rafsi mz q ∨ q ∈ [s%"r", s%"n", s%"y", s%"'y"] := by
  obtain ⟨p, hp, hr⟩ := h.first
  cases ps with
  | nil => cases hp
  | cons p' v =>
    cases hp
    intro q hq
    rcases links_pieces (.inl hr) h.links q hq with h | h | rfl
    · exact .inl h
    · exact .inr h
    · exact .inl hr

theorem no_y_piece {ps : List Str} (h : 'y' ∉ ps.flatten) : s%"y" ∉ ps ∧ s%"'y" ∉ ps := by
  constructor <;> intro hm <;> exact h (List.mem_flatten.2 ⟨_, hm, by decide⟩)

/-- Rafsi without y that begin with CCV are a lujvo, if they obey the local rules. -/
theorem ccv_lujvo {y : YHyphens} {a b c : Char} {v : List Str} (hi : InitialPair a b) (hc : Vowel c) (hv : v ≠ [])
    (hl : Links y false ([a, b, c] :: v)) (hlast : ∃ p, ([a, b, c] :: v).getLast? = some p ∧ Rafsi false p)
    (hd : ∀ p ∈ [a, b, c] :: v, Diph p) (hvow : ∃ z, ([a, b, c] :: v).flatten.getLast? = some z ∧ Vowel z)
    (hy : 'y' ∉ ([a, b, c] :: v).flatten) : LujvoPieces { yHyphens := y } ([a, b, c] :: v) := by
  obtain ⟨n1, n2⟩ := no_y_piece hy
  have hnv : ¬ VowelRafsi [a, b, c] := not_vowelRafsi (.inl (initial_consonants hi).2)
  have hmem : ∀ {p q : Str} {u w : List Str}, [a, b, c] :: v = u ++ p :: q :: w → q ∈ [a, b, c] :: v := by
    intro p q u w e; rw [e]; simp
  refine ⟨⟨⟨_, rfl, .ccv hi hc⟩, hlast, fun p hp c a b e => hd p hp c a b e, hl, ?_⟩, ?_, hvow, ?_, ?_, ?_, ?_, ?_⟩
  · rintro _ _ _ w - e
    exact n2 (by rw [e]; simp)
  · cases v with
    | nil => exact absurd rfl hv
    | cons _ _ => simp
  · rintro p q w e hp -
    cases e
    exact absurd hp hnv
  · intro u p q w e
    exact absurd (hmem e) n1
  · intro u p q w e
    exact absurd (hmem e) n2
  · intro h
    have hb := (initial_consonants hi).2
    have : pattern [a, b, c] ≠ s%"CVC" := by
      intro e
      simp [pattern, consonant_not_vowel hb, hb] at e
    cases h with
    | gismu h1 => exact this h1
    | y h1 => exact this h1
    | more h1 => exact this h1
  · intro _
    exact ⟨[a, b, c], by simp, .inr (.inr ⟨rafsi_not_hyphen (mz := false) (.ccv hi hc), hnv⟩)⟩

theorem isBrivla_lujvo {s : Settings} {qs : List Str} (h : LujvoPieces s qs) (hy : 'y' ∉ qs.flatten) (hlen : qs.flatten.length < 10 ^ 95) :
    isBrivla .linked s qs.flatten = .ok true := by
  have hl : ∀ d ∈ qs.flatten, Vowel d ∨ Consonant d ∨ d = '\'' := by
    intro d hd
    rcases lujvo_letters h d hd with h | h | h | h
    · exact .inl h
    · exact .inr (.inl h)
    · exact .inr (.inr h)
    · exact absurd (h ▸ hd) hy
  have := C41_every_lujvo (s := s) (w := qs.flatten) (ps := qs) (reading_letters hl) h
    (Nat.lt_of_lt_of_le hlen (Nat.pow_le_pow_right (by decide) (by decide)))
  unfold isBrivla
  rw [this]
  rfl

theorem isBrivla_gismu {s : Settings} {x : Str} (h : Gismu s.allowMz x) : isBrivla .linked s x = .ok true := by
  have hr := reading_letters (gismu_letters h)
  have hne : x ≠ [] := by cases h <;> simp
  have := (C03_gismu_iff (b := .linked) (s := s) (w := x) (ps := [x])).2 (by rw [hr]; exact ⟨hne, h, rfl⟩)
  unfold isBrivla
  rw [this]
  rfl

/-- Pieces without y that fall apart: a consonant, a vowel, and a lujvo. -/
theorem fallsApart_tail {y : YHyphens} {ps : List Str} (h : FallsApart ps) : s%"y" ∉ ps → Links y false ps →
    (∃ p, ps.getLast? = some p ∧ Rafsi false p) → (∃ z, ps.flatten.getLast? = some z ∧ Vowel z) →
    ∃ (x0 x1 : Char) (cs : List Str), ps.flatten = x0 :: x1 :: cs.flatten ∧ Consonant x0 ∧ Vowel x1 ∧ 2 ≤ cs.length ∧
      ∀ c ∈ cs, ∃ a b d, c = [a, b, d] ∧ InitialPair a b ∧ Vowel d := by
  have cvc : ∀ {p : Str}, pattern p = s%"CVC" → ∃ a b c, p = [a, b, c] ∧ Consonant a ∧ Vowel b ∧ Consonant c := by
    intro p hp
    obtain ⟨a, b, c, e, h1, h2, h3⟩ := tarmi_cvc.1 (pattern_cvc.1 hp)
    exact ⟨a, b, c, e, (isConsonant_iff a).1 h1, (isVowel_iff b).1 h2, (isConsonant_iff c).1 h3⟩
  induction h with
  | @gismu p a b c d e v h1 h2 h3 h4 =>
    intro _ hl _ _
    obtain ⟨x0, x1, x2, rfl, hx0, hx1, hx2⟩ := cvc h1
    obtain ⟨_, _, _, _, _, e1, g1, g2, g3, g4, g5⟩ := tarmi_cvccv.1 (pattern_cvccv.1 h3)
    cases e1
    obtain ⟨_, _, m1, m2, m3⟩ := h2
    cases m1; cases m2
    have hv : v = [] := by
      cases v with
      | nil => rfl
      | cons q w =>
        exfalso
        have hr : Rafsi false [a, b, c, d, e] :=
          .gismu (.cvccv ((isConsonant_iff a).1 g1) ((isVowel_iff b).1 g2) (initial_valid h4) ((isVowel_iff e).1 g5))
        rcases link_cases (links_cons.1 (links_cons.1 hl).2).1 hr with ⟨-, h⟩ | ⟨-, h⟩ | ⟨-, h⟩ | ⟨h, -⟩
        · rcases h with h | ⟨h, -⟩ <;> simp at h
        · simp at h
        · rcases h with h | ⟨h, -⟩ <;> simp at h
        · obtain ⟨_, _, _, h1, h2, h3 | h3⟩ := h <;> cases h3
    subst hv
    refine ⟨x0, x1, [[x2, a, b], [c, d, e]], rfl, hx0, hx1, by simp, ?_⟩
    intro z hz
    simp at hz
    rcases hz with rfl | rfl
    · exact ⟨_, _, _, rfl, m3, (isVowel_iff b).1 g2⟩
    · exact ⟨_, _, _, rfl, h4, (isVowel_iff e).1 g5⟩
  | y _ _ _ => intro h; simp at h
  | @more p q v h1 h2 _ ih =>
    intro hy hl hlast hz
    have hqne : (q :: v).flatten ≠ [] := by
      obtain ⟨_, b, _, m2, _⟩ := h2
      cases q with
      | nil => cases m2
      | cons _ _ => simp
    obtain ⟨y0, y1, cs, e, hy0, hy1, h2l, hcs⟩ := ih (fun h => hy (List.mem_cons_of_mem _ h)) (links_cons.1 hl).2
      (by obtain ⟨p, hp, hr⟩ := hlast; exact ⟨p, by rw [← hp]; rfl, hr⟩)
      (by
        obtain ⟨z, hz, hzv⟩ := hz
        refine ⟨z, ?_, hzv⟩
        rw [List.flatten_cons, getLast?_append_ne _ hqne] at hz
        exact hz)
    obtain ⟨x0, x1, x2, rfl, hx0, hx1, hx2⟩ := cvc h1
    obtain ⟨_, b, m1, m2, m3⟩ := h2
    cases m1
    have hb : b = y0 := by
      cases q with
      | nil => cases m2
      | cons _ _ => cases m2; simp at e; exact e.1
    subst hb
    refine ⟨x0, x1, [x2, b, y1] :: cs, ?_, hx0, hx1, by simp; omega, ?_⟩
    · rw [List.flatten_cons, e]; rfl
    · intro z hz
      rcases List.mem_cons.1 hz with rfl | hz
      · exact ⟨_, _, _, rfl, m3, hy1⟩
      · exact hcs z hz

theorem ccvs_links {y : YHyphens} : ∀ {cs : List Str}, (∀ c ∈ cs, ∃ a b d, c = [a, b, d] ∧ InitialPair a b ∧ Vowel d) → Links y false cs := by
  intro cs
  induction cs with
  | nil => intro _ u p q v e; simp at e
  | cons c cs ih =>
    intro h
    cases cs with
    | nil => exact links_one
    | cons c' cs =>
      refine links_cons.2 ⟨?_, ih fun x hx => h x (List.mem_cons_of_mem _ hx)⟩
      obtain ⟨a, b, d, rfl, h1, h2⟩ := h c (by simp)
      obtain ⟨a', b', d', rfl, h1', h2'⟩ := h c' (by simp)
      refine .rafsi (.ccv h1 h2) (.ccv h1' h2') (.inl rfl) ?_ ?_
      · intro x z hx hz hxc
        simp at hx
        subst hx
        exact absurd hxc (vowel_not_consonant h2)
      · intro x y' z t hx _ hm
        simp at hx
        subst hx
        have : ∀ t ∈ bannedTriples, t.head? = some 'n' := by decide
        have := this _ hm
        simp at this
        subst this
        revert h2; decide

/-- What the letters of a zi'evla look like, if no tail of it is a word, is no sequence of rafsi. -/
theorem form_unreadable {y : YHyphens} {mz : Bool} {x : Str} (hf : ZihevlaForm mz x) (hg : ¬ Gismu false x)
    (hl : ∀ qs, LujvoPieces { yHyphens := y } qs → qs.flatten ≠ x)
    (ht : ∀ u t, x = u ++ t → (∃ a, u.getLast? = some a ∧ Vowel a) → ConsonantInitial t ∨ Onglide t →
      (∀ a b, Adjacent u a b → ¬ (Consonant a ∧ Consonant b)) → isBrivla .linked { yHyphens := y } t = .ok false)
    (hlen : x.length < 10 ^ 95) : ∀ ps, Reading y false ps → ps.flatten ≠ x := by
  rintro ps hR rfl
  have hny : 'y' ∉ ps.flatten := by
    intro h
    rcases hf.sounds.letters _ h with h | h | h <;> revert h <;> decide
  obtain ⟨n1, n2⟩ := no_y_piece hny
  have hcl := hf.cluster
  have hvow := hf.vowel
  obtain ⟨p, hp, hpr⟩ := hR.first
  have hnh : ¬ VowelRafsi p → ¬ Hyphen p ∧ ¬ VowelRafsi p := fun h => ⟨rafsi_not_hyphen hpr, h⟩
  cases ps with
  | nil => cases hp
  | cons p' v =>
    cases hp
    cases v with
    | nil =>
      -- one rafsi
      simp only [List.flatten_cons, List.flatten_nil, List.append_nil] at hf hg
      obtain ⟨n, hs, h2⟩ := hf.syllables
      obtain ⟨u, ch, t, hr, hch, -⟩ := hf.cluster
      have hadj : ∃ a b, Adjacent p a b ∧ Consonant a ∧ Consonant b := by
        match ch, hch, hr with
        | a :: b :: ch, _, hr => exact ⟨a, b, ⟨u, ch ++ t, by rw [hr.eq]; simp⟩, hr.all a (by simp), hr.all b (by simp)⟩
      have hk := rafsi_rk hpr
      rw [zihevla_long hpr (form_long hf) hs h2 hadj] at hk
      cases hk with
      | cvccv h1 h2 h3 h4 => exact hg (.cvccv h1 h2 h3 h4)
      | ccvcv h1 h2 h3 h4 => exact hg (.ccvcv h1 h2 h3 h4)
    | cons q v =>
      have hfirst : VowelRafsi p → ¬ Hyphen q → v = [] ∧ pattern q = s%"CCV" := by
        intro hpv hqh
        have hqr : Rafsi false q := by
          rcases reading_pieces' hR q (by simp) with h | h
          · exact h
          · exact absurd (by unfold Hyphen; simp at h ⊢; rcases h with h | h | h | h <;> simp [h]) hqh
        obtain ⟨q0, q1, q', rfl, -, hq0⟩ := rafsi_pair2 hqr
        have hpc : ∃ c, p.head? = some c ∧ Consonant c := by
          obtain ⟨c, t, rfl, hc⟩ := rafsi_first hpr
          exact ⟨c, rfl, (isConsonant_iff c).1 hc⟩
        have hq1 : Consonant q1 := by
          apply Classical.byContradiction
          intro hq1
          obtain ⟨u, ch, t, hr, hch, hu⟩ := hcl
          obtain ⟨c, a, b, ha, hb, hpe⟩ := hpv
          have hac := vowel_not_consonant ha
          have hbc := vowel_not_consonant hb
          have hqc : ¬ Consonant '\'' := by decide
          have hall := hr.all
          have e := hr.eq
          match ch, hch with
          | k0 :: k1 :: ch, _ =>
            have h0 := hall k0 (by simp)
            have h1 := hall k1 (by simp)
            rcases hpe with rfl | rfl
            · simp at hpc
              match u, e, hu with
              | [], e, _ => simp at e; grind
              | [_], e, _ => simp at e; grind
              | [_, _], e, _ => simp at e; grind
              | [_, _, _], e, _ => simp at e; grind
              | _ :: _ :: _ :: _ :: u, e, hu =>
                simp at e
                obtain ⟨rfl, rfl, rfl, rfl, -⟩ := e
                simp [hpc, hq0, hac, hbc] at hu
            · simp at hpc
              match u, e, hu with
              | [], e, _ => simp at e; grind
              | [_], e, _ => simp at e; grind
              | [_, _], e, _ => simp at e; grind
              | [_, _, _], e, _ => simp at e; grind
              | [_, _, _, _], e, _ => simp at e; grind
              | _ :: _ :: _ :: _ :: _ :: u, e, hu =>
                simp at e
                obtain ⟨rfl, rfl, rfl, rfl, rfl, -⟩ := e
                simp [hpc, hq0, hac, hbc, hqc] at hu
        obtain ⟨hi, a, r', rfl, ha, hr'⟩ := rafsi_ccx hqr hq1
        have htail := ht p ((q0 :: q1 :: a :: r') :: v).flatten (by simp)
          (by obtain ⟨c, x, y, h1, h2, rfl | rfl⟩ := hpv <;> exact ⟨_, rfl, h2⟩) (.inl hq0)
          (by
            obtain ⟨c, x, y, h1, h2, hpe⟩ := hpv
            have hxc := vowel_not_consonant h1
            have hyc := vowel_not_consonant h2
            have hqc : ¬ Consonant '\'' := by decide
            rintro e f hadj ⟨he, hf⟩
            rcases hpe with rfl | rfl <;> simp only [adjacent_cons, adjacent_single] at hadj <;> grind)
        have hlk := (links_cons.1 (hR.links : Links _ _ _)).2
        cases v with
        | nil =>
          refine ⟨rfl, ?_⟩
          rcases hr' with rfl | ⟨d, rfl, hd⟩ | ⟨d, f, rfl, hd, hf'⟩
          · simp [pattern, consonant_not_vowel hq0, consonant_not_vowel hq1, hq0, hq1, ha]
          · exfalso
            obtain ⟨z, hz, hzv⟩ := hvow
            simp only [List.flatten_cons, List.flatten_nil, List.append_nil] at hz
            rw [getLast?_append_ne _ (by simp)] at hz
            simp at hz
            subst hz
            exact vowel_not_consonant hzv hd
          · exfalso
            simp only [List.flatten_cons, List.flatten_nil, List.append_nil] at htail
            rw [isBrivla_gismu (s := { yHyphens := y }) (.ccvcv hi ha hd hf')] at htail
            cases htail
        | cons q2 v =>
          exfalso
          have hy2 : 'y' ∉ ((q0 :: q1 :: a :: r') :: q2 :: v).flatten := by
            intro h; exact hny (by rw [List.flatten_cons]; exact List.mem_append_right _ h)
          obtain ⟨m1, m2⟩ := no_y_piece hy2
          have hr0 : r' = [] := by
            rcases hr' with rfl | ⟨d, rfl, hd⟩ | ⟨d, f, rfl, hd, hf'⟩
            · rfl
            · exfalso
              have hns := not_short_cc (.inr hq0) (.inr hq1) (.inl ha) (.inr hd)
              rcases link_cases (links_cons.1 hlk).1 hqr with ⟨-, h⟩ | ⟨rfl, -⟩ | ⟨-, h⟩ | ⟨h, -⟩
              · exact hns h
              · simp at m1
              · exact hns h
              · obtain ⟨_, _, _, h1, h2, h3 | h3⟩ := h <;> cases h3
                exact vowel_not_consonant h1 hq1
            · exfalso
              rcases link_cases (links_cons.1 hlk).1 hqr with ⟨-, h⟩ | ⟨-, h⟩ | ⟨-, h⟩ | ⟨h, -⟩
              · rcases h with h | ⟨h, -⟩ <;> simp at h
              · simp at h
              · rcases h with h | ⟨h, -⟩ <;> simp at h
              · obtain ⟨_, _, _, h1, h2, h3 | h3⟩ := h <;> cases h3
          subst hr0
          have hne : ([q0, q1, a] :: q2 :: v).flatten ≠ [] := by simp
          have hL := ccv_lujvo hi ha (by simp) hlk
            (by obtain ⟨p, hp, hr⟩ := hR.last; exact ⟨p, by rw [← hp]; rfl, hr⟩)
            (fun p hp => hR.diphthongs p (List.mem_cons_of_mem _ hp))
            (by
              obtain ⟨z, hz, hzv⟩ := hvow
              refine ⟨z, ?_, hzv⟩
              rw [List.flatten_cons, getLast?_append_ne _ hne] at hz
              exact hz) hy2
          rw [isBrivla_lujvo hL hy2 (by
            rw [List.flatten_cons, List.length_append] at hlen; omega)] at htail
          cases htail
      have hmem : ∀ {u w : List Str} {a b : Str}, p :: q :: v = u ++ a :: b :: w → b ∈ p :: q :: v := by
        intro u w a b e; rw [e]; simp
      refine hl (p :: q :: v) ⟨hR, by simp, hvow, ?_, ?_, ?_, ?_, ?_⟩ rfl
      · intro a b c e; cases e; exact hfirst
      · intro u a b w e; exact absurd (hmem e) n1
      · intro u a b w e; exact absurd (hmem e) n2
      · intro hfa
        obtain ⟨x0, x1, cs, e, hx0, hx1, h2, hcs⟩ := fallsApart_tail hfa n1 hR.links hR.last hvow
        have hcy : 'y' ∉ cs.flatten := fun h => hny (by rw [e]; simp [h])
        match cs, h2 with
        | c0 :: c1 :: cs, _ =>
          obtain ⟨a, b, d, rfl, hi, hd⟩ := hcs c0 (by simp)
          have hL : LujvoPieces { yHyphens := y } ([a, b, d] :: c1 :: cs) := by
            refine ccv_lujvo hi hd (by simp) (ccvs_links hcs) ?_ ?_ ?_ hcy
            · cases hgl : ([a, b, d] :: c1 :: cs).getLast? with
              | none => simp at hgl
              | some z =>
                obtain ⟨_, _, _, rfl, h1, h2⟩ := hcs z (List.mem_of_getLast? hgl)
                exact ⟨_, rfl, .ccv h1 h2⟩
            · intro z hz c' a' b' e1 ha' hb'
              obtain ⟨_, _, _, rfl, h1, h2⟩ := hcs z hz
              cases e1
              exact absurd (initial_consonants h1).2 (vowel_not_consonant ha')
            · obtain ⟨z, hz, hzv⟩ := hvow
              refine ⟨z, ?_, hzv⟩
              rw [e] at hz
              rw [show x0 :: x1 :: ([a, b, d] :: c1 :: cs).flatten = [x0, x1] ++ ([a, b, d] :: c1 :: cs).flatten from rfl,
                getLast?_append_ne _ (by simp)] at hz
              exact hz
          have htail := ht [x0, x1] ([a, b, d] :: c1 :: cs).flatten e ⟨x1, rfl, hx1⟩ (.inl (initial_consonants hi).1) (by
            rintro c f hadj ⟨-, hf⟩
            simp only [adjacent_cons, adjacent_single] at hadj
            have := vowel_not_consonant hx1
            grind)
          rw [isBrivla_lujvo hL hcy (by
            have := congrArg List.length e
            simp only [List.length_cons] at this
            omega)] at htail
          cases htail
      · intro _
        by_cases hpv : VowelRafsi p
        · by_cases hqh : Hyphen q
          · refine ⟨q, by simp, ?_⟩
            rcases reading_pieces' hR q (by simp) with h | h
            · exact absurd hqh (rafsi_not_hyphen h)
            · simp at h
              rcases h with h | h | h | h
              · exact .inl h
              · exact .inr (.inl h)
              · exact absurd (by simp [h]) n1
              · exact absurd (by simp [h]) n2
          · obtain ⟨-, h2⟩ := hfirst hpv hqh
            refine ⟨q, by simp, .inr (.inr ⟨hqh, ?_⟩)⟩
            rintro ⟨c, a, b, h3, h4, rfl | rfl⟩
            · simp [pattern, h3] at h2
            · simp [pattern, h3] at h2
        · exact ⟨p, by simp, .inr (.inr (hnh hpv))⟩

end Jvotci
