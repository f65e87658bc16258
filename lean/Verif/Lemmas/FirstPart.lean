import Verif.Props.Extended
import Verif.Lemmas.RafsiBlocks
import Verif.Lemmas.Segs

/-!
# Helper lemmas: what stands before the first y of a brivla
-/

namespace Jvotci

open Spec

/-- No two consonants are next to each other. -/
def NoPair (u : Str) : Prop := ∀ a b, Adjacent u a b → ¬ (Consonant a ∧ Consonant b)

theorem noPair_left {u v : Str} (h : NoPair (u ++ v)) : NoPair u := by
  rintro a b ⟨x, y, rfl⟩
  exact h a b ⟨x, y ++ v, by simp⟩

theorem noPair_right {u v : Str} (h : NoPair (u ++ v)) : NoPair v := by
  rintro a b ⟨x, y, rfl⟩
  exact h a b ⟨u ++ x, y, by simp⟩

/-- Rafsi without two adjacent consonants. -/
theorem rafsi_noPair {mz : Bool} {p : Str} (h : Rafsi mz p) (hn : NoPair p) : VowelRafsi p ∨ pattern p = s%"CVC" := by
  have ip : ∀ {a b : Char}, InitialPair a b → Consonant a ∧ Consonant b := fun h => initial_consonants h
  cases h with
  | cvv ha hb hc => exact .inl ⟨_, _, _, hb, hc, .inl rfl⟩
  | cvhv ha hb hc => exact .inl ⟨_, _, _, hb, hc, .inr rfl⟩
  | cvc ha hb hc => exact .inr (pattern_cvc.2 (by simp [rafsiTarmi, (isConsonant_iff _).2 ha, (isVowel_iff _).2 hb, (isConsonant_iff _).2 hc, not_vowel_of_consonant ((isConsonant_iff _).2 hc)]))
  | ccv h _ => exact absurd (ip h) (hn _ _ ⟨[], _, rfl⟩)
  | cvcc _ _ h => exact absurd ⟨h.1, h.2.1⟩ (hn _ _ ⟨[_, _], [], rfl⟩)
  | ccvc h _ _ => exact absurd (ip h) (hn _ _ ⟨[], _, rfl⟩)
  | gismu h =>
    cases h with
    | cvccv _ _ h _ => exact absurd ⟨h.1, h.2.1⟩ (hn _ _ ⟨[_, _], [_], rfl⟩)
    | ccvcv h _ _ _ => exact absurd (ip h) (hn _ _ ⟨[], _, rfl⟩)

/-- A beginning without y lies before the first y. -/
theorem before_y {p x u r : Str} (hp : 'y' ∉ p) (e : p ++ x = u ++ 'y' :: r) : ∃ v, u = p ++ v := by
  induction p generalizing u with
  | nil => exact ⟨u, rfl⟩
  | cons a p ih =>
    cases u with
    | nil => exact absurd (by rw [List.cons_append, List.nil_append] at e; simp [(List.cons.inj e).1]) hp
    | cons b u =>
      simp only [List.cons_append, List.cons.injEq] at e
      obtain ⟨v, rfl⟩ := ih (fun h => hp (by simp [h])) e.2
      exact ⟨v, by rw [e.1]; rfl⟩

theorem same_y {u v r t : Str} (hu : 'y' ∉ u) (hv : 'y' ∉ v) (e : u ++ 'y' :: r = v ++ 'y' :: t) : u = v := by
  obtain ⟨x, rfl⟩ := before_y hu e
  obtain ⟨z, hz⟩ := before_y hv e.symm
  have := congrArg List.length hz
  simp only [List.length_append] at this
  rw [show x = [] from List.length_eq_zero_iff.1 (by omega), List.append_nil]

/-- The last letter of CVC. -/
theorem cvc_ends {p : Str} (hp : pattern p = s%"CVC") : ∃ c, p.getLast? = some c ∧ Consonant c := by
  obtain ⟨a, p1, rfl, ha, h1⟩ := pattern_eq_cons.1 hp
  obtain ⟨b, p2, rfl, hb, h2⟩ := pattern_eq_cons.1 h1
  obtain ⟨c, p3, rfl, hc, h3⟩ := pattern_eq_cons.1 h2
  rw [pattern_nil.1 h3]
  refine ⟨c, rfl, ?_⟩
  revert hc
  repeat' split
  all_goals simp_all

/-- A rafsi ending in a consonant, and a rafsi behind it. -/
theorem cvc_meets {mz : Bool} {p q v : Str} (hp : pattern p = s%"CVC") (hq : Rafsi mz q) : ¬ NoPair (p ++ q ++ v) := by
  intro h
  obtain ⟨c, hc, hcc⟩ := cvc_ends hp
  obtain ⟨a, b, t, rfl, -, ha⟩ := rafsi_pair2 hq
  obtain ⟨p', rfl⟩ := List.getLast?_eq_some_iff.1 hc
  exact h c a ⟨p', b :: t ++ v, by simp⟩ ⟨hcc, ha⟩

/-- Rafsi one after another, without hyphens and without two adjacent consonants: CVV and CV'V, and possibly CVC at the end. -/
theorem links_noPair {y : YHyphens} {mz : Bool} : ∀ {ps : List Str}, (∀ u p q v, ps = u ++ p :: q :: v → Link y mz p q) →
    (∀ p, ps.head? = some p → Rafsi mz p) → (∃ p, ps.getLast? = some p ∧ Rafsi mz p) → 'y' ∉ ps.flatten → NoPair ps.flatten →
    ∃ l z, ps = l ++ [z] ∧ (∀ p ∈ l, VowelRafsi p ∧ Rafsi mz p) ∧ (VowelRafsi z ∨ pattern z = s%"CVC") ∧ Rafsi mz z
  | [], _, _, ⟨_, h, _⟩, _, _ => by cases h
  | [p], _, hf, _, _, hn => by
    have hp := hf p rfl
    exact ⟨[], p, rfl, by simp, rafsi_noPair hp (by simpa using hn), hp⟩
  | p :: q :: v, hl, hf, hz, hy, hn => by
    have hp := hf p rfl
    have hpn : NoPair p := by
      rw [List.flatten_cons] at hn
      exact noPair_left hn
    have hlink := hl [] p q v rfl
    rw [List.flatten_cons, List.flatten_cons] at hn hy
    cases hlink with
    | y => simp at hy
    | apostropheY => simp at hy
    | afterY hh => simp only [List.mem_cons, List.not_mem_nil, or_false] at hh; rcases hh with rfl | rfl <;> simp at hy
    | afterR => exact absurd hp (by intro h; have := rafsi_pair2 h; obtain ⟨_, _, _, e, -⟩ := this; cases e)
    | afterN => exact absurd hp (by intro h; have := rafsi_pair2 h; obtain ⟨_, _, _, e, -⟩ := this; cases e)
    | rOrN _ _ _ hh =>
      exfalso
      have hnext : ∃ q' v', v = q' :: v' := by
        cases v with
        | cons => exact ⟨_, _, rfl⟩
        | nil =>
          obtain ⟨z, hz, hr⟩ := hz
          cases hz
          obtain ⟨_, _, _, e, -⟩ := rafsi_pair2 hr
          simp only [List.mem_cons, List.not_mem_nil, or_false] at hh
          rcases hh with rfl | rfl <;> cases e
      obtain ⟨q', v', rfl⟩ := hnext
      have hl2 := hl [p] q q' v' rfl
      have hr' : ∃ a t, q' = a :: t ∧ Consonant a := by
        simp only [List.mem_cons, List.not_mem_nil, or_false] at hh
        have notR : ¬ Rafsi mz s%"r" := by intro h; obtain ⟨_, _, _, e, -⟩ := rafsi_pair2 h; cases e
        have notN : ¬ Rafsi mz s%"n" := by intro h; obtain ⟨_, _, _, e, -⟩ := rafsi_pair2 h; cases e
        rcases hh with rfl | rfl
        · cases hl2 with
          | rafsi h => exact absurd h notR
          | y h => exact absurd h notR
          | apostropheY _ h => exact absurd h notR
          | rOrN _ h => exact absurd h notR
          | afterY h => exact absurd h (by decide)
          | afterR h => obtain ⟨a, b, t, rfl, -, ha⟩ := rafsi_pair2 h; exact ⟨_, _, rfl, ha⟩
        · cases hl2 with
          | rafsi h => exact absurd h notN
          | y h => exact absurd h notN
          | apostropheY _ h => exact absurd h notN
          | rOrN _ h => exact absurd h notN
          | afterY h => exact absurd h (by decide)
          | afterN h => obtain ⟨a, b, t, rfl, -, ha⟩ := rafsi_pair2 h; exact ⟨_, _, rfl, ha⟩
      obtain ⟨a, t, rfl, ha⟩ := hr'
      simp only [List.mem_cons, List.not_mem_nil, or_false] at hh
      rcases hh with rfl | rfl
      · exact hn 'r' a ⟨p, t ++ v'.flatten, by simp⟩ ⟨by decide, ha⟩
      · exact hn 'n' a ⟨p, t ++ v'.flatten, by simp⟩ ⟨by decide, ha⟩
    | rafsi _ hq _ _ _ =>
      have hpv : VowelRafsi p := by
        rcases rafsi_noPair hp hpn with h | h
        · exact h
        · exact absurd (by rw [List.append_assoc]; exact hn) (cvc_meets (v := v.flatten) h hq)
      obtain ⟨l, z, e, h1, h2, h3⟩ := links_noPair (ps := q :: v) (fun u a b w e => hl (p :: u) a b w (by rw [e]; rfl))
        (fun x hx => by cases hx; exact hq) (by simpa using hz) (by rw [List.flatten_cons]; intro h; exact hy (List.mem_append_right _ h))
        (by rw [List.flatten_cons]; exact noPair_right hn)
      refine ⟨p :: l, z, by rw [e]; rfl, ?_, h2, h3⟩
      intro x hx
      rcases List.mem_cons.1 hx with rfl | hx
      · exact ⟨hpv, hp⟩
      · exact h1 x hx

/-- CVV and CV'V: a vowel at the end, no consonant but the first letter. -/
theorem vowelRafsi_tail {x : Str} (h : VowelRafsi x) : (∃ c, x.getLast? = some c ∧ Vowel c) ∧ ∀ c ∈ x.tail, ¬ Consonant c := by
  revert x
  rintro x ⟨c, a, b, ha, hb, rfl | rfl⟩
  · refine ⟨⟨b, rfl, hb⟩, fun d hd => ?_⟩
    simp only [List.tail_cons, List.mem_cons, List.not_mem_nil, or_false] at hd
    rcases hd with rfl | rfl
    · exact vowel_not_consonant ha
    · exact vowel_not_consonant hb
  · refine ⟨⟨b, rfl, hb⟩, fun d hd => ?_⟩
    simp only [List.tail_cons, List.mem_cons, List.not_mem_nil, or_false] at hd
    rcases hd with rfl | rfl | rfl
    · exact vowel_not_consonant ha
    · decide
    · exact vowel_not_consonant hb

theorem first_lujvo_vowel {s : Settings} {p q x r : Str} {v : List Str} (hu : 'y' ∉ p ++ x) (hn : NoPair (p ++ x)) (hpr : Rafsi s.allowMz p)
    (hw : q ++ v.flatten = x ++ 'y' :: r) (hl : LujvoPieces s (p :: q :: v)) (hv : VowelRafsi p) :
    x = s%"'" := by
  have hlink := hl.reading.links [] p q v rfl
  have hpy := rafsi_noY hpr
  have notR : ∀ {c : Char}, ¬ Rafsi s.allowMz [c] := by intro c h; obtain ⟨_, _, _, e, -⟩ := rafsi_pair2 h; cases e
  by_cases hq : Hyphen q
  · cases hlink with
    | rafsi _ hr =>
      exfalso
      obtain ⟨a, b, t, rfl, -, ha⟩ := rafsi_pair2 hr
      simp only [Hyphen, List.mem_cons, List.not_mem_nil, or_false] at hq
      rcases hq with hq | hq | hq | hq | hq | hq <;> cases hq <;> revert ha <;> decide
    | y =>
      exfalso
      obtain ⟨q', v', rfl⟩ : ∃ q' v', v = q' :: v' := by
        cases v with
        | cons => exact ⟨_, _, rfl⟩
        | nil =>
          obtain ⟨z, hz, hzr⟩ := hl.reading.last
          cases hz
          exact absurd hzr notR
      obtain ⟨hsh, l, hll, hlv⟩ := vowelRafsi_short hv
      rcases hl.y [] p q' v' rfl with h | ⟨-, h⟩
      · refine h ⟨hsh, ?_, ?_⟩
        · intro c d hc _ hcc
          rw [hll] at hc; cases hc
          exact absurd hcc (vowel_not_consonant hlv)
        · intro c d e t hc _ hm
          rw [hll] at hc; cases hc
          exact absurd hm (by
            intro hm
            have : l = 'n' := by
              simp only [bannedTriples, List.mem_cons, List.cons.injEq, List.not_mem_nil, or_false] at hm
              rcases hm with h | h | h | h <;> exact h.1
            rw [this] at hlv; revert hlv; decide)
      · have : pattern p = s%"CVC" := by cases h <;> assumption
        obtain ⟨c, hc, hcc⟩ := cvc_ends this
        rw [hll] at hc; cases hc
        exact vowel_not_consonant hlv hcc
    | apostropheY =>
      have : x = s%"'" := same_y (u := x) (v := s%"'") (r := r) (t := v.flatten) (fun h => hu (List.mem_append_right _ h)) (by decide) hw.symm
      exact this
    | rOrN _ _ _ hh =>
      exfalso
      obtain ⟨q', v', rfl⟩ : ∃ q' v', v = q' :: v' := by
        cases v with
        | cons => exact ⟨_, _, rfl⟩
        | nil =>
          obtain ⟨z, hz, hzr⟩ := hl.reading.last
          cases hz
          simp only [List.mem_cons, List.not_mem_nil, or_false] at hh
          rcases hh with rfl | rfl <;> exact absurd hzr notR
      have hl2 := hl.reading.links [p] q q' v' rfl
      have hr' : Rafsi s.allowMz q' := by
        simp only [List.mem_cons, List.not_mem_nil, or_false] at hh
        rcases hh with rfl | rfl
        · cases hl2 with
          | rafsi h => exact absurd h notR
          | y h => exact absurd h notR
          | apostropheY _ h => exact absurd h notR
          | rOrN _ h => exact absurd h notR
          | afterY _ h => exact h
          | afterR h => exact h
        · cases hl2 with
          | rafsi h => exact absurd h notR
          | y h => exact absurd h notR
          | apostropheY _ h => exact absurd h notR
          | rOrN _ h => exact absurd h notR
          | afterY _ h => exact h
          | afterN h => exact h
      obtain ⟨h0, hq1, hh1⟩ : ∃ h0 : Char, q = [h0] ∧ h0 ≠ 'y' ∧ Consonant h0 := by
        simp only [List.mem_cons, List.not_mem_nil, or_false] at hh
        rcases hh with rfl | rfl
        · exact ⟨'r', rfl, by decide, by decide⟩
        · exact ⟨'n', rfl, by decide, by decide⟩
      subst hq1
      rw [List.flatten_cons, ← List.append_assoc] at hw
      obtain ⟨x', rfl⟩ := before_y (p := [h0] ++ q') (by
        simp only [List.mem_append, List.mem_singleton, not_or]
        exact ⟨fun h => hh1.1 h.symm, rafsi_noY hr'⟩) hw
      obtain ⟨a, b, t, rfl, -, ha⟩ := rafsi_pair2 hr'
      exact hn h0 a ⟨p, b :: t ++ x', by simp⟩ ⟨hh1.2, ha⟩
    | afterY hh => simp only [List.mem_cons, List.not_mem_nil, or_false] at hh; rcases hh with rfl | rfl <;> simp at hpy
    | afterR => exact absurd hpr notR
    | afterN => exact absurd hpr notR
  · exfalso
    obtain ⟨rfl, -⟩ := hl.first p q v rfl hv hq
    obtain ⟨z, hz, hzr⟩ := hl.reading.last
    cases hz
    have : 'y' ∈ q := by
      have : 'y' ∈ q ++ ([] : List Str).flatten := by rw [hw]; simp
      simpa using this
    exact rafsi_noY hzr this

theorem first_lujvo_cvc {s : Settings} {p q x r : Str} {v : List Str} (hu : 'y' ∉ p ++ x) (hn : NoPair (p ++ x)) (hpr : Rafsi s.allowMz p)
    (hw : q ++ v.flatten = x ++ 'y' :: r) (hl : LujvoPieces s (p :: q :: v))
    (hc : pattern p = s%"CVC") : x = [] := by
  have hlink := hl.reading.links [] p q v rfl
  have hpy := rafsi_noY hpr
  have notR : ∀ {c : Char}, ¬ Rafsi s.allowMz [c] := by intro c h; obtain ⟨_, _, _, e, -⟩ := rafsi_pair2 h; cases e
  have hyu : q = s%"y" → x = [] := by
    rintro rfl
    have := same_y (u := x) (v := []) (r := r) (t := v.flatten) (fun h => hu (List.mem_append_right _ h)) (by simp) hw.symm
    exact this
  cases hlink with
  | rafsi _ hr =>
    obtain ⟨x', rfl⟩ := before_y (rafsi_noY hr) hw
    exact absurd (by rw [List.append_assoc]; exact hn) (cvc_meets (v := x') hc hr)
  | y => exact hyu rfl
  | apostropheY =>
    exfalso
    obtain ⟨q', v', rfl⟩ : ∃ q' v', v = q' :: v' := by
      cases v with
      | cons => exact ⟨_, _, rfl⟩
      | nil =>
        obtain ⟨z, hz, hzr⟩ := hl.reading.last
        cases hz
        obtain ⟨_, _, _, e, -⟩ := rafsi_pair2 hzr
        cases e
        exact absurd (rafsi_noY hzr) (by simp)
    obtain ⟨-, -, hv, -⟩ := hl.apostropheY [] p q' v' rfl
    obtain ⟨c, hc1, hcc⟩ := cvc_ends hc
    obtain ⟨-, l, hll, hlv⟩ := vowelRafsi_short hv
    rw [hc1] at hll; cases hll
    exact vowel_not_consonant hlv hcc
  | rOrN _ _ hv =>
    exfalso
    obtain ⟨c, hc1, hcc⟩ := cvc_ends hc
    obtain ⟨-, l, hll, hlv⟩ := vowelRafsi_short hv
    rw [hc1] at hll; cases hll
    exact vowel_not_consonant hlv hcc
  | afterY hh => simp only [List.mem_cons, List.not_mem_nil, or_false] at hh; rcases hh with rfl | rfl <;> simp at hpy
  | afterR => exact absurd hpr notR
  | afterN => exact absurd hpr notR

theorem first_lujvo {s : Settings} {W u r : Str} {ps : List Str} (e : W = u ++ 'y' :: r) (hu : 'y' ∉ u) (hn : NoPair u)
    (hw : ps.flatten = W) (hl : LujvoPieces s ps) :
    pattern u = s%"CVC" ∨ ∃ x, u = x ++ s%"'" ∧ (∃ c, x.getLast? = some c ∧ Vowel c) ∧
      ((∀ c ∈ x.tail, ¬ Consonant c) ∨
        ∃ qs : List Str, 3 ≤ qs.length ∧ (∀ q ∈ qs, ConsonantInitial q ∧ VowelRafsi q) ∧ qs.flatten = x) := by
  obtain ⟨p, hp, hpr⟩ := hl.reading.first
  obtain ⟨q, v, rfl⟩ : ∃ q v, ps = p :: q :: v := by
    have h2 := hl.two
    clear hw hl
    cases ps with
    | nil => cases hp
    | cons a ps =>
      cases ps with
      | nil => simp at h2
      | cons b ps => cases hp; exact ⟨b, ps, rfl⟩
  have hpy := rafsi_noY hpr
  rw [e, List.flatten_cons, List.flatten_cons] at hw
  obtain ⟨x, rfl⟩ := before_y hpy hw
  rw [List.append_assoc] at hw
  have hw := List.append_cancel_left hw
  rcases rafsi_noPair hpr (noPair_left hn) with hv | hc
  · rw [first_lujvo_vowel hu hn hpr hw hl hv]
    exact .inr ⟨p, rfl, (vowelRafsi_tail hv).1, .inl (vowelRafsi_tail hv).2⟩
  · rw [first_lujvo_cvc hu hn hpr hw hl hc]
    exact .inl (by simpa using hc)

theorem first_extended {s : Settings} {W u r : Str} {parts : List YPart} (e : W = u ++ 'y' :: r) (hu : 'y' ∉ u) (hn : NoPair u)
    (hw : joinParts parts = W) (hx : ExtendedLujvo s parts) :
    pattern u = s%"CVC" ∨ ∃ x, u = x ++ s%"'" ∧ (∃ c, x.getLast? = some c ∧ Vowel c) ∧
      ((∀ c ∈ x.tail, ¬ Consonant c) ∨
        ∃ qs : List Str, 3 ≤ qs.length ∧ (∀ q ∈ qs, ConsonantInitial q ∧ VowelRafsi q) ∧ qs.flatten = x) := by
  obtain ⟨p0, p1, v, rfl⟩ : ∃ p0 p1 v, parts = p0 :: p1 :: v := by
    have h2 := hx.two
    match parts, h2 with
    | p0 :: p1 :: v, _ => exact ⟨_, _, _, rfl⟩
  have hok := hx.parts [] p0 (p1 :: v) rfl
  have hlead : p0.lead = false := by
    cases hh : p0.lead with
    | false => rfl
    | true => exact absurd (hok.lead hh).1 (by simp)
  have htext : 'y' ∉ p0.text := by
    unfold YPart.text
    rw [hlead]
    simp only [Bool.false_eq_true, if_false, List.nil_append, List.mem_append, not_or]
    refine ⟨hok.noY, ?_⟩
    split <;> decide
  rw [e] at hw
  have hw' : p0.text ++ 'y' :: joinParts (p1 :: v) = u ++ 'y' :: r := by
    rw [← hw]; simp [joinParts]
  have eu := same_y htext hu hw'
  have hcore : NoPair p0.core := by
    rw [← eu] at hn
    unfold YPart.text at hn
    exact noPair_right (noPair_left hn)
  have hu' : u = p0.core ++ (if p0.trail then s%"'" else []) := by
    rw [← eu]; unfold YPart.text; rw [hlead]; rfl
  have hkind := hok.kind
  cases hk : p0.kind with
  | cvc =>
    rw [hk] at hkind
    left
    have : p0.trail = false := by
      cases hh : p0.trail with
      | false => rfl
      | true =>
        obtain ⟨-, c, hc, hv⟩ := hok.trail hh
        obtain ⟨d, hd, hdc⟩ := cvc_ends hkind.1
        rw [hc] at hd; cases hd
        exact absurd hdc (vowel_not_consonant hv)
    rw [hu', this]
    simpa using hkind.1
  | zihevla =>
    exfalso
    rw [hk] at hkind
    obtain ⟨a, ch, t, hrun, h2, -⟩ := hkind.cluster
    obtain ⟨c1, c2, ch', rfl⟩ : ∃ c1 c2 ch', ch = c1 :: c2 :: ch' := by
      match ch, h2 with
      | c1 :: c2 :: ch', _ => exact ⟨_, _, _, rfl⟩
    have hc1 := hrun.all c1 (by simp)
    have hc2 := hrun.all c2 (by simp)
    have hwhole : NoPair (p0.whole false) := by
      unfold YPart.whole
      split
      · intro x y hxy
        obtain ⟨m, n, hmn⟩ := hxy
        rintro ⟨hx1, hy1⟩
        have hnl : n ≠ [] := by
          rintro rfl
          have : (p0.core ++ s%"a").getLast? = some y := by rw [hmn]; simp
          simp at this
          subst this
          revert hy1; decide
        obtain ⟨n', l, rfl⟩ := List.eq_nil_or_concat n |>.resolve_left hnl
        rw [List.concat_eq_append] at hmn
        have := List.append_inj' (t₁ := s%"a") (s₂ := m ++ x :: y :: n') (t₂ := [l]) (by rw [hmn]; simp) rfl
        exact hcore x y ⟨m, n', this.1⟩ ⟨hx1, hy1⟩
      · exact hcore
    exact hwhole c1 c2 ⟨a, ch' ++ t, by rw [show p0.whole false = _ from hrun.eq]; simp⟩ ⟨hc1, hc2⟩
  | exp =>
    rw [hk] at hkind
    right
    have : p0.trail = true := by
      cases hh : p0.trail with
      | true => rfl
      | false => exact absurd (.inl ⟨hh, rfl⟩) hkind.free
    refine ⟨p0.core, by rw [hu', this]; rfl, hkind.vowel, .inl hkind.consonants⟩
  | rafsi =>
    rw [hk] at hkind
    have hfl := hkind.core
    obtain ⟨l, z, e1, h1, h2, h3⟩ := links_noPair hkind.reading.links (fun p hp => by
      obtain ⟨p', hp', hr⟩ := hkind.reading.first
      rw [hp] at hp'; cases hp'; exact hr) hkind.reading.last (by rw [hfl]; exact hok.noY) (by rw [hfl]; exact hcore)
    have hoff := hkind.tosmabru rfl
    have hflat : p0.core = l.flatten ++ z := by rw [← hfl, e1]; simp
    have hcut : ∀ x l', l = x :: l' → ¬ Rafsi false (l'.flatten ++ z) ∨ pattern (l'.flatten ++ z) = s%"CCV" := by
      intro x l' el
      by_cases hr : Rafsi false (l'.flatten ++ z)
      · by_cases hc : pattern (l'.flatten ++ z) = s%"CCV"
        · exact .inr hc
        · exfalso
          refine hoff ⟨x, l'.flatten ++ z, by rw [hflat, el]; simp, .inl (h1 x (by rw [el]; simp)).1, .inl ⟨hr, hc⟩⟩
      · exact .inl hr
    have plain : ∀ {x : Str}, Rafsi s.allowMz x → NoPair x → Rafsi false x ∧ pattern x ≠ s%"CCV" := by
      intro x hx hxn
      cases hx with
      | cvv ha hb hc => exact ⟨.cvv ha hb hc, by rw [Ne, pattern_ccv]; simp [rafsiTarmi, (isConsonant_iff _).2 ha, (isVowel_iff _).2 hb, (isVowel_iff _).2 hc]⟩
      | cvhv ha hb hc => exact ⟨.cvhv ha hb hc, by intro h; have := congrArg List.length h; simp [pattern] at this⟩
      | cvc ha hb hc => exact ⟨.cvc ha hb hc, by
          intro h
          rw [pattern_ccv] at h
          simp [rafsiTarmi, (isConsonant_iff _).2 ha, (isVowel_iff _).2 hb, (isConsonant_iff _).2 hc, not_vowel_of_consonant ((isConsonant_iff _).2 hc)] at h⟩
      | ccv h _ => exact absurd (initial_consonants h) (hxn _ _ ⟨[], _, rfl⟩)
      | cvcc _ _ h => exact absurd ⟨h.1, h.2.1⟩ (hxn _ _ ⟨[_, _], [], rfl⟩)
      | ccvc h _ _ => exact absurd (initial_consonants h) (hxn _ _ ⟨[], _, rfl⟩)
      | gismu h =>
        cases h with
        | cvccv _ _ h _ => exact absurd ⟨h.1, h.2.1⟩ (hxn _ _ ⟨[_, _], [_], rfl⟩)
        | ccvcv h _ _ _ => exact absurd (initial_consonants h) (hxn _ _ ⟨[], _, rfl⟩)
    have hzn : NoPair z := by rw [hflat] at hcore; exact noPair_right hcore
    obtain ⟨hzf, hzp⟩ := plain h3 hzn
    have hlone : l.length ≠ 1 := by
      intro h
      match l, h with
      | [x], _ =>
        rcases hcut x [] rfl with h | h
        · exact h (by simpa using hzf)
        · exact hzp (by simpa using h)
    rcases h2 with hzv | hzc
    · -- all CVV or CV'V
      right
      have htrail : p0.trail = true := by
        cases hh : p0.trail with
        | true => rfl
        | false =>
          obtain ⟨c, hc, hcc⟩ := hkind.ends hh rfl
          obtain ⟨⟨d, hd, hdv⟩, -⟩ := vowelRafsi_tail hzv
          rw [hflat, List.getLast?_append, hd] at hc
          cases hc
          exact absurd hcc (vowel_not_consonant hdv)
      refine ⟨p0.core, by rw [hu', htrail]; rfl, ?_, ?_⟩
      · obtain ⟨⟨d, hd, hdv⟩, -⟩ := vowelRafsi_tail hzv
        exact ⟨d, by rw [hflat, List.getLast?_append, hd]; rfl, hdv⟩
      · cases l with
        | nil => exact .inl (by rw [hflat]; exact (vowelRafsi_tail hzv).2)
        | cons x l' =>
          refine .inr ⟨p0.pieces, ?_, ?_, hfl⟩
          · rw [e1]
            simp only [List.length_append, List.length_cons, List.length_nil] at hlone ⊢
            omega
          · intro q hq
            rw [e1] at hq
            have : VowelRafsi q ∧ Rafsi s.allowMz q := by
              rcases List.mem_append.1 hq with hq | hq
              · exact h1 q hq
              · rw [List.mem_singleton] at hq
                subst hq
                exact ⟨hzv, h3⟩
            obtain ⟨a, b, t, rfl, -, ha⟩ := rafsi_pair2 this.2
            exact ⟨ha, this.1⟩
    · -- CVC at the end falls off
      exfalso
      match l, hlone, e1, h1, hflat, hcut with
      | [], _, _, _, hflat, _ => exact hkind.notCvc (by rw [hflat]; simpa using hzc)
      | x :: x' :: l', _, e1, h1, hflat, _ =>
        obtain ⟨c, hc, hcc⟩ := cvc_ends hzc
        refine hoff ⟨x, (x' :: l' ++ [z]).flatten, by rw [hflat]; simp, .inl (h1 x (by simp)).1, .inr ⟨x' :: l' ++ [z], rfl, .inr ?_⟩⟩
        have hmem : ∀ q ∈ x' :: l' ++ [z], Rafsi s.allowMz q := by
          intro q hq
          rcases List.mem_append.1 hq with hq | hq
          · exact (h1 q (by simp at hq ⊢; exact .inr hq)).2
          · rw [List.mem_singleton] at hq; rw [hq]; exact h3
        have hno : ∀ {q : Str}, Hyphen q → q ∉ x' :: l' ++ [z] := by
          intro q hh hq
          obtain ⟨a, b, t, rfl, -, ha⟩ := rafsi_pair2 (hmem q hq)
          simp only [Hyphen, List.mem_cons, List.not_mem_nil, or_false] at hh
          rcases hh with hh | hh | hh | hh | hh | hh <;> cases hh <;> revert ha <;> decide
        refine ⟨⟨⟨x', rfl, hmem _ (by simp)⟩, ⟨z, List.getLast?_concat (l := x' :: l'), h3⟩, ?_, ?_, ?_⟩, by simp, ⟨c, by simp [hc], hcc⟩, ?_, hno (by decide), ?_⟩
        · intro p hp
          exact hkind.reading.diphthongs p (by rw [e1]; simp at hp ⊢; grind)
        · intro a p q b hab
          exact hkind.reading.links (x :: a) p q b (by rw [e1, List.cons_append, List.cons_append, ← List.cons_append, hab]; rfl)
        · intro a b c v _ hab
          exact hno (q := s%"'y") (by decide) (by rw [hab]; simp)
        · intro a p q b hab
          exact absurd (by rw [hab]; simp) (hno (q := s%"y") (by decide))
        · rintro p q b (hab | hab)
          · exact absurd (by rw [hab]; simp) (hno (q := s%"r") (by decide))
          · exact absurd (by rw [hab]; simp) (hno (q := s%"n") (by decide))

end Jvotci
