import Verif.Lemmas.GluedWord

/-!
# Helper lemmas: the slots of the search, put together
-/

namespace Jvotci

open Spec

/-- What a component may be represented by, if not by an experimental rafsi. -/
inductive UnitOf (s : Settings) : Str → Kind → Prop
  | rafsi {x} : Rafsi s.allowMz x → Diph x → UnitOf s x (kindOf x)
  | whole {x} : ZWhole s x → UnitOf s x .long
  | cut {x} : ZCut s x → UnitOf s x .short

/-- A hyphen with y behind something of kind `k`. -/
def SepBy (k : Kind) (h : Str) : Prop :=
  ((k = .vv ∨ k = .ccv ∨ k = .long) ∧ h = s%"'y") ∨ ((k = .cvc ∨ k = .short) ∧ h = s%"y")

theorem unit_exp {s : Settings} {x : Str} {k : Kind} (h : UnitOf s x k) : k ≠ .exp := by
  cases h with
  | rafsi h _ => exact rafsi_kind h
  | whole => simp
  | cut => simp

theorem unit_last {s : Settings} {x : Str} {k : Kind} (h : UnitOf s x k) : ∃ c, x.getLast? = some c ∧ (Vowel c ∨ Consonant c) := by
  cases h with
  | rafsi h _ => exact rafsi_lastLetter h
  | whole h => obtain ⟨c, hc, hv⟩ := h.form.vowel; exact ⟨c, hc, .inl hv⟩
  | cut h => exact zcut_last h

theorem unit_ne {s : Settings} {x : Str} {k : Kind} (h : UnitOf s x k) : x ≠ [] := by
  obtain ⟨c, hc, -⟩ := unit_last h
  rintro rfl
  cases hc

/-- A part with y behind it. -/
theorem sep_part {s : Settings} {x h : Str} {k : Kind} (f : Bool) (hu : UnitOf s x k) (hs : SepBy k h) :
    ∃ q, PSeg s f false q ∧ q.core = x ∧ q.pieces = [x] ∧ h = (if q.trail then s%"'" else []) ++ s%"y" ∧ q.lead = (!f && leadB x) := by
  cases hu with
  | rafsi hr hd =>
    have hl := leadB_rafsi hr
    obtain ⟨c, hc, h1, h2⟩ := rk_last (rafsi_rk hr)
    have hcvc : ∀ {k}, kindOf x = k → k ≠ .cvc → pattern x ≠ s%"CVC" := by
      rintro k rfl hk e
      exact hk (kind_cvc_iff.2 (pattern_cvc.1 e))
    rcases hs with ⟨hk, rfl⟩ | ⟨hk, rfl⟩
    · refine ⟨⟨false, x, true, .rafsi, [x]⟩, .rafsi (reading_oneRafsi hr hd) (by simp) (rafsi_noY hr) ?_ (by simp) (by simp) ?_, rfl, rfl, rfl, by simp [hl]⟩
      · exact hcvc rfl (by rcases hk with h | h | h <;> rw [h] <;> simp)
      · intro _
        exact ⟨c, hc, h2 hk⟩
    · by_cases hkc : kindOf x = .cvc
      · exact ⟨⟨false, x, false, .cvc, [x]⟩, .cvc hr hkc, rfl, rfl, rfl, by simp [hl]⟩
      · refine ⟨⟨false, x, false, .rafsi, [x]⟩, .rafsi (reading_oneRafsi hr hd) (by simp) (rafsi_noY hr) ?_ (by simp) ?_ (by simp), rfl, rfl, rfl, by simp [hl]⟩
        · exact hcvc rfl hkc
        · intro _ _
          exact ⟨x, rfl, hk⟩
  | whole hz =>
    rcases hs with ⟨-, rfl⟩ | ⟨hk, -⟩
    · exact ⟨_, .whole hz, rfl, rfl, rfl, rfl⟩
    · rcases hk with h | h <;> cases h
  | cut hz =>
    rcases hs with ⟨hk, -⟩ | ⟨-, rfl⟩
    · rcases hk with h | h | h <;> cases h
    · exact ⟨_, .cut hz, rfl, rfl, rfl, rfl⟩

/-- A slot that is not the first begins like this. -/
theorem unit_head {s : Settings} {x h : Str} {k : Kind} (hu : UnitOf s x k) :
    (leading false x ++ x ++ h).head? = some '\'' ↔ leadB x = true := by
  rw [leading_leadB]
  cases hl : leadB x with
  | true => simp
  | false =>
    simp only [Bool.false_eq_true, if_false, List.nil_append, iff_false]
    rw [head_append (unit_ne hu)]
    cases hu with
    | rafsi hr _ =>
      obtain ⟨a, t, rfl, ha⟩ := rafsi_first hr
      rintro ⟨⟩
      exact absurd ha (by decide)
    | whole hz =>
      cases x with
      | nil => simp
      | cons a t =>
        rintro ⟨⟩
        rcases sounds_firstLetter hz.form.sounds with h | h <;> exact absurd h (by decide)
    | cut hz =>
      cases x with
      | nil => simp
      | cons a t =>
        rintro ⟨⟩
        rcases sounds_firstLetter (u := t ++ s%"a") hz.whole.form.sounds with h | h <;> exact absurd h (by decide)

/-- Nothing but a rafsi follows at once. -/
theorem bare_link {s : Settings} {y z : Slot} {x : Str} {last : Bool} (hx : Rafsi s.allowMz x) (hk : kindOf x = .vv ∨ kindOf x = .ccv ∨ kindOf x = .cvc)
    (hy : y.text = x) (hu : UnitOf s z.rafsi z.kind) (hw : z.Written false last) (hj : Joint s.allowMz y z) :
    Rafsi s.allowMz z.rafsi ∧ Link s.yHyphens s.allowMz x z.rafsi ∧ shapeScore z.rafsi ≠ 0 := by
  obtain ⟨c, hc, hcv⟩ := rafsi_lastLetter hx
  have hs : shapeScore z.rafsi ≠ 0 := by
    intro h0
    have := hj.hyphen (.inr h0)
    rw [hy, hc] at this
    rcases this with h | h <;> cases h <;> rcases hcv with h | h <;> revert h <;> decide
  have hr : Rafsi s.allowMz z.rafsi := by
    generalize z.kind = k at hu
    cases hu with
    | rafsi h _ => exact h
    | whole h => exact absurd (zwhole_shape h) hs
    | cut h => exact absurd (zcut_shape h) hs
  obtain ⟨h, ht, -⟩ := hw
  rw [leading_rafsi hr, List.nil_append] at ht
  refine ⟨hr, .rafsi hx hr ((kind_short hx).2 hk) ?_ ?_, hs⟩
  · intro c d h1 h2 hcc
    obtain ⟨a, t, e, ha⟩ := rafsi_first hr
    rw [e] at h2 ht
    obtain rfl : a = d := Option.some.inj h2
    exact hj.pair c a (by rw [hy]; exact h1) (by rw [ht]; rfl) hcc ((isConsonant_iff a).1 ha)
  · intro c d e' t h1 h2
    have := hj.triple c (by rw [hy]; exact h1)
    rw [ht, h2] at this
    exact this

theorem trailing_mid {x h : Str} {k : Kind} (ht : Trailing false false x k h) (hk : k ≠ .exp) :
    (h = [] ∧ (k = .vv ∨ k = .ccv ∨ k = .cvc)) ∨ SepBy k h := by
  cases k with
  | vv => simp [Trailing, SepBy] at ht ⊢; exact ht
  | ccv => simp [Trailing, SepBy] at ht ⊢; exact ht
  | cvc => simp [Trailing, SepBy] at ht ⊢; exact ht
  | short => simp [Trailing, SepBy] at ht ⊢; exact ht
  | long => simp [Trailing, SepBy] at ht ⊢; exact ht
  | exp => exact absurd rfl hk

/-- The slots behind the first, and what stands between them. -/
inductive Match : List Slot → List (Str × Str) → Prop
  | one {z : Slot} : z.text = leading false z.rafsi ++ z.rafsi → Match [z] [(z.rafsi, [])]
  | cons {z z' : Slot} {zs h g' t} : z.text = leading false z.rafsi ++ z.rafsi ++ h → Match (z' :: zs) ((z'.rafsi, g') :: t) →
      Match (z :: z' :: zs) ((z.rafsi, h ++ leading false z'.rafsi) :: (z'.rafsi, g') :: t)

/-- Slots in their places, the first of which is not the first of the word. -/
inductive Placed (s : Settings) : List Slot → Prop
  | one {z : Slot} : UnitOf s z.rafsi z.kind → z.Written false true → Placed s [z]
  | cons {z z' : Slot} {zs} : UnitOf s z.rafsi z.kind → z.Written false false → Joint s.allowMz z z' → Placed s (z' :: zs) → Placed s (z :: z' :: zs)

theorem placed_head {s : Settings} {z : Slot} {zs : List Slot} (h : Placed s (z :: zs)) : UnitOf s z.rafsi z.kind ∧ ∃ last, z.Written false last := by
  cases h with
  | one h1 h2 => exact ⟨h1, _, h2⟩
  | cons h1 h2 => exact ⟨h1, _, h2⟩

theorem glue_placed {s : Settings} : ∀ {zs : List Slot}, Placed s zs → (∃ c, ((zs.map Slot.text).flatten).getLast? = some c ∧ Vowel c) →
    ∃ z rest g t p ps, zs = z :: rest ∧ Match zs ((z.rafsi, g) :: t) ∧ Glued s false ((z.rafsi, g) :: t) (p :: ps) ∧ p.lead = leadB z.rafsi ∧
      (p.kind = .zihevla → shapeScore z.rafsi = 0) := by
  intro zs h
  induction h with
  | @one z hu hw =>
    intro hv
    obtain ⟨h, ht, htr⟩ := hw
    simp only [List.map_cons, List.map_nil, List.flatten_cons, List.flatten_nil, List.append_nil] at hv
    obtain ⟨c, hc, hcv⟩ := hv
    have hcy : c ≠ 'y' := by rintro rfl; revert hcv; decide
    have hh : h = [] ∧ z.kind ≠ .cvc ∧ z.kind ≠ .short := by
      have hlast : h = [] → z.rafsi.getLast? = some c := by
        rintro rfl
        rw [ht, List.append_nil, List.getLast?_append] at hc
        obtain ⟨d, hd, -⟩ := unit_last hu
        rw [hd] at hc ⊢
        simpa using hc
      have hend : ∀ u, h ≠ u ++ s%"y" := by
        rintro u rfl
        rw [ht, ← List.append_assoc, List.getLast?_concat] at hc
        cases hc
        exact hcy rfl
      have hne := unit_exp hu
      cases hk : z.kind with
      | vv => rw [hk] at htr; simp [Trailing] at htr; rcases htr with rfl | ⟨rfl, h⟩ <;> simp_all
      | ccv => rw [hk] at htr; simp [Trailing] at htr; rcases htr with rfl | rfl; simp; exact absurd rfl (hend s%"'")
      | cvc =>
        rw [hk] at htr; simp [Trailing] at htr
        subst htr
        exfalso
        rw [hk] at hu
        generalize hkk : Kind.cvc = k at hu
        cases hu with
        | rafsi hr _ =>
          obtain ⟨l, hl, h1, -⟩ := rk_last (rafsi_rk hr)
          rw [hlast rfl] at hl
          cases hl
          exact vowel_not_consonant hcv (h1 (.inl hkk.symm))
        | whole => cases hkk
        | cut => cases hkk
      | short =>
        rw [hk] at htr; simp [Trailing] at htr
        obtain ⟨rfl, d, hd, hdv⟩ := htr
        rw [hlast rfl] at hd
        cases hd
        exact absurd hcv hdv
      | long => rw [hk] at htr; simp [Trailing] at htr; simp [htr]
      | exp => exact absurd hk hne
    obtain ⟨rfl, hk1, hk2⟩ := hh
    rw [List.append_nil] at ht
    have hvl : ∃ c, z.rafsi.getLast? = some c ∧ Vowel c := by
      obtain ⟨d, hd, -⟩ := unit_last hu
      rw [ht, List.getLast?_append, hd] at hc
      simp at hc
      subst hc
      exact ⟨d, hd, hcv⟩
    have hM := Match.one ht
    generalize hkk : z.kind = k at hu hk1 hk2
    cases hu with
    | rafsi hr hd =>
      exact ⟨z, [], [], [], _, _, rfl, hM, .last hr hd hvl, (leadB_rafsi hr).symm, by simp⟩
    | whole hz => exact ⟨z, [], [], [], _, _, rfl, hM, .zlast hz, rfl, fun _ => zwhole_shape hz⟩
    | cut hz => exact absurd rfl hk2
  | @cons z z' zs hu hw hj hP ih =>
    intro hv
    have hv' : ∃ c, ((((z' :: zs).map Slot.text).flatten).getLast?) = some c ∧ Vowel c := by
      obtain ⟨c, hc, hcv⟩ := hv
      refine ⟨c, ?_, hcv⟩
      rw [List.map_cons, List.flatten_cons, List.getLast?_append] at hc
      cases hg : (((z' :: zs).map Slot.text).flatten).getLast? with
      | some d => rw [hg] at hc; simpa using hc
      | none =>
        exfalso
        rw [List.getLast?_eq_none_iff, List.flatten_eq_nil_iff] at hg
        have h1 := hg z'.text (by simp)
        obtain ⟨hu', last, h', ht', -⟩ := placed_head hP
        rw [h1] at ht'
        have := congrArg List.length ht'
        have := List.length_pos_iff.2 (unit_ne hu')
        simp at *
        omega
    obtain ⟨z2, rest, g, t, p, ps, e, hM, hG, hlead, hkind⟩ := ih hv'
    cases e
    obtain ⟨h, ht, htr⟩ := hw
    obtain ⟨hu', last, hw'⟩ := placed_head hP
    have hM' := Match.cons ht hM
    rcases trailing_mid htr (unit_exp hu) with ⟨rfl, hk⟩ | hsep
    · have hr : Rafsi s.allowMz z.rafsi ∧ Diph z.rafsi ∧ z.kind = kindOf z.rafsi := by
        generalize z.kind = k at hu hk
        cases hu with
        | rafsi h1 h2 => exact ⟨h1, h2, rfl⟩
        | whole => rcases hk with h | h | h <;> cases h
        | cut => rcases hk with h | h | h <;> cases h
      obtain ⟨hr, hd, hkk⟩ := hr
      rw [leading_rafsi hr, List.nil_append, List.append_nil] at ht
      obtain ⟨hr', hlk, hs⟩ := bare_link hr (hkk ▸ hk) ht hu' hw' hj
      rw [leading_rafsi hr', List.append_nil] at hM'
      exact ⟨z, z' :: zs, _, _, _, _, rfl, hM', .bare hr hd hlk hG (fun h => hs (hkind h)), (leadB_rafsi hr).symm, by simp⟩
    · obtain ⟨q, hq, hqc, hqp, rfl, hql⟩ := sep_part false hu hsep
      rw [leading_leadB, ← hlead] at hM'
      refine ⟨z, z' :: zs, _, _, q, p :: ps, rfl, hM', .sep hq hqc hqp hG, by simpa using hql, ?_⟩
      intro hk
      rw [← hqc]
      cases hq with
      | cvc => cases hk
      | rafsi => cases hk
      | whole h => exact zwhole_shape h
      | cut h => exact zcut_shape h

/-- What is spelled. -/
theorem match_spell {zs : List Slot} {l : List (Str × Str)} (h : Match zs l) :
    ∀ z rest, zs = z :: rest → (zs.map Slot.text).flatten = leading false z.rafsi ++ spell l := by
  induction h with
  | one h => rintro _ _ ⟨⟩; simp [spell, h]
  | @cons z z' zs h g' t ht _ ih =>
    rintro _ _ ⟨⟩
    rw [List.map_cons, List.flatten_cons, ih _ _ rfl, spell_cons (h := h ++ leading false z'.rafsi), ht]
    simp only [List.append_assoc]

theorem match_fst {zs : List Slot} {l : List (Str × Str)} (h : Match zs l) : l.map Prod.fst = zs.map Slot.rafsi := by
  induction h with
  | one h => rfl
  | cons _ _ ih => simpa using ih

theorem match_placed {s : Settings} {z z' : Slot} {zs : List Slot} (h : Placed s (z :: z' :: zs)) : Placed s (z' :: zs) := by
  cases h with
  | cons _ _ _ h => exact h

theorem unit_cvc {s : Settings} {x : Str} {k : Kind} (hu : UnitOf s x k) (h : pattern x = s%"CVC") : Rafsi s.allowMz x ∧ k = .cvc := by
  have ht := pattern_cvc.1 h
  have hs : shapeScore x ≠ 0 := by
    intro h0
    rcases shapeScore_other.1 h0 with h | h <;> rw [h] at ht <;> cases ht
  cases hu with
  | rafsi hr _ => exact ⟨hr, kind_cvc_iff.2 ht⟩
  | whole hz => exact absurd (zwhole_shape hz) hs
  | cut hz => exact absurd (zcut_shape hz) hs

theorem tosmG_inv {l : List (Str × Str)} (h : TosmG l) : ∃ x x' g' t, l = (x, []) :: (x', g') :: t ∧ pattern x = s%"CVC" ∧ MeetInitial x x' ∧
    ((∃ a b c d e, x' = [a, b, c, d, e] ∧ pattern x' = s%"CVCCV" ∧ InitialPair c d) ∨ (pattern x' = s%"CVC" ∧ g'.head? = some 'y') ∨
      TosmG ((x', g') :: t)) := by
  cases h with
  | gismu h1 h2 h3 h4 => exact ⟨_, _, _, _, rfl, h1, h2, .inl ⟨_, _, _, _, _, rfl, h3, h4⟩⟩
  | y h1 h2 h3 h4 => exact ⟨_, _, _, _, rfl, h1, h2, .inr (.inl ⟨h3, h4⟩)⟩
  | step h1 h2 h3 => exact ⟨_, _, _, _, rfl, h1, h2, .inr (.inr h3)⟩

/-- One step of the tosmabru test on slots. -/
theorem tosm_step {s : Settings} {z z' : Slot} {zs : List Slot} {g g' : Str} {t : List (Str × Str)} (h : TosmG ((z.rafsi, g) :: (z'.rafsi, g') :: t))
    (ht : g = [] → pattern z.rafsi = s%"CVC" → z.text = z.rafsi ∧ leading false z'.rafsi = []) (hM : Match (z' :: zs) ((z'.rafsi, g') :: t)) (hP : Placed s (z' :: zs))
    (ih : TosmG ((z'.rafsi, g') :: t) → Tosmabru (z' :: zs)) : Tosmabru (z :: z' :: zs) := by
  obtain ⟨x, x', g2, t2, e, h1, ⟨a, b, h3, h4, hi⟩, h2⟩ := tosmG_inv h
  simp only [List.cons.injEq, Prod.mk.injEq] at e
  obtain ⟨⟨rfl, rfl⟩, ⟨rfl, rfl⟩, rfl⟩ := e
  obtain ⟨ht, hl⟩ := ht rfl h1
  obtain ⟨hu', last, hw'⟩ := placed_head hP
  obtain ⟨h', ht', htr'⟩ := hw'
  refine (tosmabru_cons ⟨h1, ht⟩).2 ⟨⟨a, b, by rw [ht]; exact h3, ?_, hi⟩, ?_⟩
  · rw [ht', hl, List.nil_append, head_append (unit_ne hu')]
    exact h4
  · rcases h2 with ⟨a, b, c, d, e, he, hp, hi⟩ | ⟨hp, hy⟩ | h
    · exact .inl (.inl ⟨hp, a, b, c, d, e, he, hi⟩)
    · refine .inl (.inr ⟨hp, ?_⟩)
      obtain ⟨hr', hk'⟩ := unit_cvc hu' hp
      have hgh : ∃ x2, g' = h' ++ leading false x2 ∨ g' = [] := by
        generalize hzz : z' :: zs = zz at hM
        generalize hll : (z'.rafsi, g') :: t = ll at hM
        cases hM with
        | one =>
          simp only [List.cons.injEq, Prod.mk.injEq] at hll
          exact ⟨[], .inr hll.1.2⟩
        | @cons y y' ys h2 g2 t2 hy2 _ =>
          simp only [List.cons.injEq] at hzz
          obtain ⟨rfl, rfl⟩ := hzz
          simp only [List.cons.injEq, Prod.mk.injEq] at hll
          obtain ⟨⟨-, rfl⟩, -⟩ := hll
          refine ⟨y'.rafsi, .inl ?_⟩
          rw [ht'] at hy2
          rw [List.append_cancel_left hy2]
      rw [hk'] at htr'
      rw [ht', leading_rafsi hr', List.nil_append]
      obtain ⟨x2, rfl | rfl⟩ := hgh
      · rcases htr' with rfl | ⟨rfl, -⟩
        · rw [List.nil_append, leading_leadB] at hy
          split at hy <;> cases hy
        · rfl
      · cases hy
    · exact .inr (ih h)

/-- The tosmabru test on slots. -/
theorem tosm_match {s : Settings} {zs : List Slot} {l : List (Str × Str)} (h : Match zs l) : Placed s zs → TosmG l → Tosmabru zs := by
  induction h with
  | one =>
    intro _ h
    obtain ⟨x, x', g2, t2, e, -⟩ := tosmG_inv h
    cases e
  | @cons z z' zs h g' t ht hM ih =>
    intro hP htos
    refine tosm_step htos ?_ hM (match_placed hP) (ih (match_placed hP))
    intro e hp
    obtain ⟨rfl, h2⟩ := List.append_eq_nil_iff.1 e
    rw [leading_rafsi (unit_cvc (placed_head hP).1 hp).1, List.nil_append, List.append_nil] at ht
    exact ⟨ht, h2⟩

theorem zwhole_not_vv {s : Settings} {x : Str} (h : ZWhole s x) : ¬ VowelRafsi x := by
  have hap : ¬ Consonant '\'' := by decide
  have hvc : ∀ c, Vowel c → ¬ Consonant c := fun _ => vowel_not_consonant
  obtain ⟨p, q, e, hp, hq⟩ := form_pair h.form
  rintro ⟨c, a, b, ha, hb, rfl | rfl⟩ <;> simp only [adjacent_cons, adjacent_single] at e <;> grind

theorem zcut_not_vv {s : Settings} {x : Str} (h : ZCut s x) : ¬ VowelRafsi x := by
  have hap : ¬ Consonant '\'' := by decide
  have haa : ¬ Consonant 'a' := by decide
  have hvc : ∀ c, Vowel c → ¬ Consonant c := fun _ => vowel_not_consonant
  obtain ⟨p, q, e, hp, hq⟩ := form_pair h.whole.form
  rintro ⟨c, a, b, ha, hb, rfl | rfl⟩ <;> simp only [List.cons_append, List.nil_append, adjacent_cons, adjacent_single] at e <;> grind

theorem unit_vv {s : Settings} {x : Str} {k : Kind} (hu : UnitOf s x k) (h : VowelRafsi x) : Rafsi s.allowMz x ∧ k = .vv := by
  cases hu with
  | rafsi hr _ => exact ⟨hr, (kind_vowelRafsi hr).1 h⟩
  | whole hz => exact absurd h (zwhole_not_vv hz)
  | cut hz => exact absurd h (zcut_not_vv hz)

theorem unit_ccv {s : Settings} {x : Str} {k : Kind} (hu : UnitOf s x k) (h : pattern x = s%"CCV") : Rafsi s.allowMz x ∧ k = .ccv := by
  have ht := pattern_ccv.1 h
  have hs : shapeScore x ≠ 0 := by
    intro h0
    rcases shapeScore_other.1 h0 with h | h <;> rw [h] at ht <;> cases ht
  cases hu with
  | rafsi hr _ => exact ⟨hr, kind_ccv.2 ht⟩
  | whole hz => exact absurd (zwhole_shape hz) hs
  | cut hz => exact absurd (zcut_shape hz) hs

theorem placed_units {s : Settings} {zs : List Slot} (h : Placed s zs) : ∀ z ∈ zs, UnitOf s z.rafsi z.kind := by
  induction h with
  | one h _ => intro z hz; simp at hz; subst hz; exact h
  | cons h _ _ _ ih =>
    intro z hz
    rcases List.mem_cons.1 hz with rfl | hz
    · exact h
    · exact ih z hz

/-- Which hyphen stands behind the first slot. -/
theorem first_cases {s : Settings} {cm : Bool} {n : Nat} {y z : Slot} {h hy : Str} (hu : UnitOf s y.rafsi y.kind) (ht : y.text = y.rafsi ++ h)
    (htr : Trailing true false y.rafsi y.kind h) (hF : FirstHyphen s cm n y z hy) :
    (h ++ hy = [] ∧ Rafsi s.allowMz y.rafsi ∧ Diph y.rafsi ∧ (kindOf y.rafsi = .vv ∨ kindOf y.rafsi = .ccv ∨ kindOf y.rafsi = .cvc) ∧
      (cm = false → VowelRafsi y.rafsi → n = 2 ∧ pattern z.rafsi = s%"CCV")) ∨
    (cm = false ∧ h = [] ∧ (hy = s%"r" ∨ hy = s%"n") ∧ Rafsi s.allowMz y.rafsi ∧ Diph y.rafsi ∧ VowelRafsi y.rafsi ∧ s.yHyphens ≠ .forceY ∧
      (hy = s%"n" ↔ z.text.head? = some 'r')) ∨
    (SepBy y.kind (h ++ hy) ∧ (hy = [] ∨ VowelRafsi y.rafsi) ∧ pattern y.rafsi ≠ s%"CCV" ∧
      (VowelRafsi y.rafsi → z.text.head? = some '\'' ∨ s.yHyphens ≠ .standard)) := by
  obtain ⟨c, hc, hcv⟩ := unit_last hu
  have hca : c ≠ '\'' := by rintro rfl; rcases hcv with h | h <;> revert h <;> decide
  have hne := unit_ne hu
  have hlast : h = [] → y.text.getLast? ≠ some '\'' := by
    rintro rfl
    rw [ht, List.append_nil, hc]
    simpa using hca
  have hlasty : ∀ u, h = u ++ s%"y" → y.text.getLast? ≠ some '\'' := by
    rintro u rfl
    rw [ht, ← List.append_assoc, List.getLast?_concat]
    simp
  have nvv : ∀ {x : Str}, y.kind ≠ .vv → y.rafsi = x → ¬ pattern x ∈ [s%"CVV", s%"CV'V"] := by
    rintro x hk rfl hp
    have hv : VowelRafsi y.rafsi := by
      simp only [List.mem_cons, List.not_mem_nil, or_false, pattern_cvv, pattern_cvhv] at hp
      exact tarmi_vowelRafsi hp
    exact hk (unit_vv hu hv).2
  have hr : y.kind = .vv ∨ y.kind = .ccv ∨ y.kind = .cvc → Rafsi s.allowMz y.rafsi ∧ Diph y.rafsi ∧ y.kind = kindOf y.rafsi := by
    intro hk
    generalize y.kind = k at hu hk
    cases hu with
    | rafsi h1 h2 => exact ⟨h1, h2, rfl⟩
    | whole => rcases hk with h | h | h <;> cases h
    | cut => rcases hk with h | h | h <;> cases h
  cases hk : y.kind with
  | vv =>
    obtain ⟨h1, h2, h3⟩ := hr (.inl hk)
    have hv : VowelRafsi y.rafsi := (kind_vowelRafsi h1).2 (h3 ▸ hk)
    have hnc : pattern y.rafsi ≠ s%"CCV" := fun e => not_vowelRafsi_ccv e hv
    rw [hk] at htr
    simp [Trailing] at htr
    rcases htr with rfl | rfl
    · rcases hF with ⟨h', -⟩ | ⟨-, -, hF⟩
      · exact absurd h' (hlast rfl)
      · have hp : pattern y.rafsi ∈ [s%"CVV", s%"CV'V"] := by
          simp only [List.mem_cons, List.not_mem_nil, or_false, pattern_cvv, pattern_cvhv]
          exact kind_vv.1 (h3 ▸ hk)
        by_cases hn : cm = false → n = 2 ∧ pattern z.rafsi = s%"CCV"
        · rw [if_neg (fun h => h.2.2 (hn h.2.1))] at hF
          subst hF
          exact .inl ⟨rfl, h1, h2, .inl (h3 ▸ hk), fun hc _ => hn hc⟩
        · obtain ⟨hcm, hn⟩ : cm = false ∧ ¬ (n = 2 ∧ pattern z.rafsi = s%"CCV") := by
            cases cm with
            | true => exact absurd (fun h => by cases h) hn
            | false => exact ⟨rfl, fun h => hn fun _ => h⟩
          rw [if_pos ⟨hp, hcm, hn⟩] at hF
          split at hF
          · rename_i hf
            subst hF
            exact .inr (.inr ⟨.inl ⟨.inl rfl, rfl⟩, .inr hv, hnc, fun _ => .inr (by rw [hf]; simp)⟩)
          · rename_i hf
            split at hF
            · subst hF
              exact .inr (.inl ⟨hcm, rfl, .inr rfl, h1, h2, hv, hf, by simp [*]⟩)
            · subst hF
              exact .inr (.inl ⟨hcm, rfl, .inl rfl, h1, h2, hv, hf, by simp [*]⟩)
    · rcases hF with ⟨-, rfl, hst⟩ | ⟨h', -⟩
      · exact .inr (.inr ⟨.inl ⟨.inl rfl, rfl⟩, .inr hv, hnc, fun _ => hst⟩)
      · exact absurd (by rw [ht]; simp) h'
  | ccv =>
    obtain ⟨h1, h2, h3⟩ := hr (.inr (.inl hk))
    have hcc : pattern y.rafsi = s%"CCV" := pattern_ccv.2 (kind_ccv.1 (h3 ▸ hk))
    rw [hk] at htr
    simp [Trailing] at htr
    rcases htr with rfl | rfl
    · rcases hF with ⟨h', -⟩ | ⟨-, -, hF⟩
      · exact absurd h' (hlast rfl)
      · rw [if_neg (fun h => nvv (by rw [hk]; simp) rfl h.1)] at hF
        subst hF
        exact .inl ⟨rfl, h1, h2, .inr (.inl (h3 ▸ hk)), fun _ hv => absurd hv (not_vowelRafsi_ccv hcc)⟩
    · rcases hF with ⟨h', -⟩ | ⟨-, h', -⟩
      · exact absurd h' (hlasty s%"'" rfl)
      · exact absurd ⟨hcc, ht⟩ h'
  | cvc =>
    obtain ⟨h1, h2, h3⟩ := hr (.inr (.inr hk))
    have hnv : ¬ VowelRafsi y.rafsi := fun hv => by have := (unit_vv hu hv).2; rw [hk] at this; cases this
    have hnc : pattern y.rafsi ≠ s%"CCV" := fun e => by have := (unit_ccv hu e).2; rw [hk] at this; cases this
    rw [hk] at htr
    simp [Trailing] at htr
    rcases htr with rfl | rfl
    · rcases hF with ⟨h', -⟩ | ⟨-, -, hF⟩
      · exact absurd h' (hlast rfl)
      · rw [if_neg (fun h => nvv (by rw [hk]; simp) rfl h.1)] at hF
        subst hF
        exact .inl ⟨rfl, h1, h2, .inr (.inr (h3 ▸ hk)), fun _ hv => absurd hv hnv⟩
    · rcases hF with ⟨h', -⟩ | ⟨-, -, hF⟩
      · exact absurd h' (hlasty [] rfl)
      · rw [if_neg (fun h => nvv (by rw [hk]; simp) rfl h.1)] at hF
        subst hF
        exact .inr (.inr ⟨.inr ⟨.inl rfl, rfl⟩, .inl rfl, hnc, fun hv => absurd hv hnv⟩)
  | short =>
    have hnv : ¬ VowelRafsi y.rafsi := fun hv => by have := (unit_vv hu hv).2; rw [hk] at this; cases this
    have hnc : pattern y.rafsi ≠ s%"CCV" := fun e => by have := (unit_ccv hu e).2; rw [hk] at this; cases this
    rw [hk] at htr
    simp [Trailing] at htr
    subst htr
    rcases hF with ⟨h', -⟩ | ⟨-, -, hF⟩
    · exact absurd h' (hlasty [] rfl)
    · rw [if_neg (fun h => nvv (by rw [hk]; simp) rfl h.1)] at hF
      subst hF
      exact .inr (.inr ⟨.inr ⟨.inr rfl, rfl⟩, .inl rfl, hnc, fun hv => absurd hv hnv⟩)
  | long =>
    have hnv : ¬ VowelRafsi y.rafsi := fun hv => by have := (unit_vv hu hv).2; rw [hk] at this; cases this
    have hnc : pattern y.rafsi ≠ s%"CCV" := fun e => by have := (unit_ccv hu e).2; rw [hk] at this; cases this
    rw [hk] at htr
    simp [Trailing] at htr
    subst htr
    rcases hF with ⟨h', -⟩ | ⟨-, -, hF⟩
    · exact absurd h' (hlasty s%"'" rfl)
    · rw [if_neg (fun h => nvv (by rw [hk]; simp) rfl h.1)] at hF
      subst hF
      exact .inr (.inr ⟨.inl ⟨.inr (.inr rfl), rfl⟩, .inl rfl, hnc, fun hv => absurd hv hnv⟩)
  | exp => exact absurd hk (unit_exp hu)

theorem sepBy_y {k : Kind} {h : Str} (hs : SepBy k h) : 'y' ∈ h := by
  rcases hs with ⟨-, rfl⟩ | ⟨-, rfl⟩ <;> simp

/-- The hyphens behind words of which nothing or the last vowel is cut off. -/
inductive Gaps (cm : Bool) : List Slot → List (Str × Str) → Prop
  | one {z : Slot} : (cm = false → z.kind ≠ .short) → Gaps cm [z] [(z.rafsi, [])]
  | cons {z : Slot} {zs g t} : (z.kind = .long → g.head? = some '\'') → (z.kind = .short → g.head? = some 'y') → Gaps cm zs t → zs ≠ [] →
      Gaps cm (z :: zs) ((z.rafsi, g) :: t)

theorem trailing_gap {f : Bool} {x h u : Str} {k : Kind} (h0 : Trailing f false x k h) :
    (k = .long → (h ++ u).head? = some '\'') ∧ (k = .short → (h ++ u).head? = some 'y') := by
  constructor <;> rintro rfl <;> simp [Trailing] at h0 <;> subst h0 <;> rfl

theorem match_gaps {s : Settings} {cm : Bool} {zs : List Slot} {l : List (Str × Str)} (hm : Match zs l) : Placed s zs →
    (cm = false → ∃ c, ((zs.map Slot.text).flatten).getLast? = some c ∧ Vowel c) → Gaps cm zs l := by
  induction hm with
  | @one z _ =>
    intro hP hcv
    refine .one ?_
    intro hcm hk
    obtain ⟨c, hc, hv⟩ := hcv hcm
    cases hP with
    | one hu hw =>
      obtain ⟨h, ht, htr⟩ := hw
      rw [hk] at htr
      simp only [Trailing, Bool.true_eq_false, and_false, true_and, false_or] at htr
      obtain ⟨rfl, d, hd, hdv⟩ := htr
      simp only [List.map_cons, List.map_nil, List.flatten_cons, List.flatten_nil, List.append_nil] at hc
      rw [ht, List.append_nil, List.getLast?_append, hd] at hc
      cases hc
      exact hdv hv
  | @cons z z' zs h g' t ht _ ih =>
    intro hP hcv
    cases hP with
    | cons _ hw _ hP =>
      obtain ⟨h2, ht2, htr⟩ := hw
      rw [ht] at ht2
      have e := List.append_cancel_left ht2
      subst e
      have := trailing_gap (u := leading false z'.rafsi) htr
      refine .cons this.1 this.2 (ih hP fun hcm => ?_) (by simp)
      obtain ⟨c, hc, hv⟩ := hcv hcm
      refine ⟨c, ?_, hv⟩
      rw [List.map_cons, List.flatten_cons, List.getLast?_append] at hc
      cases hg : (((z' :: zs).map Slot.text).flatten).getLast? with
      | some d => rw [hg] at hc; simpa using hc
      | none =>
        exfalso
        obtain ⟨hu', last, h3, ht3, -⟩ := placed_head hP
        rw [List.getLast?_eq_none_iff, List.flatten_eq_nil_iff] at hg
        have h1 := hg z'.text (by simp)
        rw [h1] at ht3
        have := congrArg List.length ht3
        have := List.length_pos_iff.2 (unit_ne hu')
        simp at *
        omega

/-- Put together. -/
theorem glue_slots {s : Settings} {y z : Slot} {rest : List Slot} {hy : Str} (hu : UnitOf s y.rafsi y.kind) (hw : y.Written true false)
    (hP : Placed s (z :: rest)) (hL : Legal s false (y :: z :: rest) hy) :
    ∃ l ps, Glued s true l ps ∧ Start s l ∧ ¬ TosmG l ∧ wordOf (y :: z :: rest) hy = spell l ∧
      l.map Prod.fst = (y :: z :: rest).map Slot.rafsi ∧ Gaps false (y :: z :: rest) l := by
  obtain ⟨y', z', rest', e, hF⟩ := hL.first
  cases e
  have hj := hL.joints y z ⟨[], rest, rfl⟩
  obtain ⟨hu', last, hw'⟩ := placed_head hP
  have hw'0 := hw'
  obtain ⟨h', ht', htr'⟩ := hw'
  have hv : ∃ c, ((((z :: rest).map Slot.text).flatten).getLast?) = some c ∧ Vowel c := by
    obtain ⟨c, hc, hcv⟩ := hL.ends
    refine ⟨c, ?_, by simpa using hcv⟩
    rw [wordOf, List.getLast?_append] at hc
    cases hg : (((z :: rest).map Slot.text).flatten).getLast? with
    | some d => rw [hg] at hc; simpa using hc
    | none =>
      exfalso
      rw [List.getLast?_eq_none_iff, List.flatten_eq_nil_iff] at hg
      have h1 := hg z.text (by simp)
      rw [h1] at ht'
      have := congrArg List.length ht'
      have := List.length_pos_iff.2 (unit_ne hu')
      simp at *
      omega
  obtain ⟨z2, rest2, g, t, p, ps, e, hM, hG, hlead, hkind⟩ := glue_placed hP hv
  cases e
  obtain ⟨h, ht, htr⟩ := hw
  rw [show leading true y.rafsi = [] by simp [leading], List.nil_append] at ht
  have hsp := match_spell hM z rest rfl
  have hword : wordOf (y :: z :: rest) hy = spell ((y.rafsi, h ++ hy ++ leading false z.rafsi) :: (z.rafsi, g) :: t) := by
    rw [wordOf, hsp, ht, spell_cons (h := h ++ hy ++ leading false z.rafsi)]
    simp only [List.append_assoc]
  have hfst := match_fst hM
  have hgaps : Gaps false (y :: z :: rest) ((y.rafsi, h ++ hy ++ leading false z.rafsi) :: (z.rafsi, g) :: t) := by
    have := trailing_gap (u := hy ++ leading false z.rafsi) htr
    rw [← List.append_assoc] at this
    exact .cons this.1 this.2 (match_gaps hM hP fun _ => hv) (by simp)
  have hall : ∀ {g0 : Str}, (∀ q ∈ (y.rafsi, g0) :: (z.rafsi, g) :: t, VowelRafsi q.1 ∧ q.2 ≠ s%"r" ∧ q.2 ≠ s%"n") →
      ∀ x ∈ y :: z :: rest, x.kind = .vv := by
    intro g0 h x hx
    rcases List.mem_cons.1 hx with rfl | hx
    · exact (unit_vv hu (h (x.rafsi, g0) (by simp)).1).2
    · have : x.rafsi ∈ ((z.rafsi, g) :: t).map Prod.fst := by rw [hfst]; exact List.mem_map_of_mem hx
      obtain ⟨q, hq, e⟩ := List.mem_map.1 this
      have := h q (List.mem_cons_of_mem _ hq)
      rw [e] at this
      exact (unit_vv (placed_units hP x hx) this.1).2
  have hsum : ∀ {zs : List Slot}, (∀ x ∈ zs, x.kind = .vv) → s.consonants = .cluster → (zs.map (Slot.count s)).sum = 0 := by
    intro zs h hc
    induction zs with
    | nil => rfl
    | cons a zs ih =>
      rw [List.map_cons, List.sum_cons, ih (fun x hx => h x (List.mem_cons_of_mem _ hx))]
      unfold Slot.count
      rw [h a (by simp)]
      simp [hc]
  have henough : (∀ q ∈ (y.rafsi, h ++ hy ++ leading false z.rafsi) :: (z.rafsi, g) :: t, VowelRafsi q.1 ∧ q.2 ≠ s%"r" ∧ q.2 ≠ s%"n") →
      hy ≠ s%"r" → hy ≠ s%"n" → s.consonants ≠ .cluster := by
    intro h h1 h2 hc
    rcases hL.consonants with h3 | h3 | h3
    · exact h1 h3
    · exact h2 h3
    · rw [hsum (hall h) hc, hc] at h3
      simp at h3
  have htos : ¬ TosmG ((y.rafsi, h ++ hy ++ leading false z.rafsi) :: (z.rafsi, g) :: t) := by
    intro htt
    refine hL.tosmabru rfl (tosm_step htt ?_ hM hP (tosm_match hM hP))
    intro e _
    obtain ⟨e, h2⟩ := List.append_eq_nil_iff.1 e
    obtain ⟨rfl, -⟩ := List.append_eq_nil_iff.1 e
    exact ⟨by rw [ht, List.append_nil], h2⟩
  rcases first_cases hu ht htr hF with ⟨he, hr, hd, hk, hvv⟩ | ⟨-, rfl, hrn, hr, hd, hvv, hfy, hn⟩ | ⟨hsep, hyv, hnc, hst⟩
  · obtain ⟨rfl, rfl⟩ := List.append_eq_nil_iff.1 he
    rw [List.append_nil] at ht
    obtain ⟨hr', hlk, hs⟩ := bare_link hr hk ht hu' hw'0 hj
    have hl0 := leading_rafsi hr' false
    rw [hl0] at hword htos henough hgaps
    refine ⟨_, _, .bare hr hd hlk hG (fun h => hs (hkind h)), ⟨?_, ?_, ?_, ?_⟩, htos, hword, by rw [List.map_cons, hfst]; rfl, hgaps⟩
    · rintro x x' g' t' ⟨⟩ hx
      obtain ⟨h2, h3⟩ := hvv rfl hx
      have : rest = [] := by simpa using h2
      subst this
      have := congrArg List.length hfst
      simp at this
      exact ⟨this, h3⟩
    · rintro x t' ⟨⟩
    · rintro x g' t' ⟨⟩ _
      simp
    · intro h
      exact henough h (by simp) (by simp)
  · have hnov : ∀ {c : Char}, y.text.getLast? = some c → c ≠ 'y' ∧ c ≠ '\'' := by
      intro c hc
      rw [ht, List.append_nil] at hc
      obtain ⟨d, hd, hdv⟩ := rafsi_lastLetter hr
      rw [hd] at hc
      cases hc
      constructor <;> rintro rfl <;> rcases hdv with h | h <;> revert h <;> decide
    have hs : shapeScore z.rafsi ≠ 0 := by
      intro h0
      rcases hj.hyphen (.inr h0) with h | h
      · exact (hnov h).1 rfl
      · exact (hnov h).2 rfl
    have hr' : Rafsi s.allowMz z.rafsi := by
      generalize z.kind = k at hu'
      cases hu' with
      | rafsi h _ => exact h
      | whole h => exact absurd (zwhole_shape h) hs
      | cut h => exact absurd (zcut_shape h) hs
    have hl0 := leading_rafsi hr' false
    rw [hl0, List.append_nil, List.nil_append] at hword htos henough hgaps
    rw [hl0, List.nil_append] at ht'
    have hh : z.text.head? = z.rafsi.head? := by rw [ht', head_append (unit_ne hu')]
    refine ⟨_, _, .rn (g := hy) hr hd hvv ?_ (.rOrN hfy hr hvv ?_) ?_ hG (fun h => hs (hkind h)), ⟨?_, ?_, ?_, ?_⟩, htos, hword, by rw [List.map_cons, hfst]; rfl, hgaps⟩
    · simpa using hrn
    · simpa using hrn
    · rcases hrn with rfl | rfl
      · exact .afterR hr' (by rw [← hh]; intro h; have := hn.2 h; cases this)
      · exact .afterN hr' (by rw [← hh]; exact hn.1 rfl)
    · rintro x x' g' t' ⟨⟩
      rcases hrn with h | h <;> cases h
    · rintro x t' ⟨⟩
      rcases hrn with h | h <;> cases h
    · rintro x g' t' ⟨⟩ hx
      exact absurd hvv (not_vowelRafsi_ccv hx)
    · intro h
      have := h (y.rafsi, hy) (by simp)
      rcases hrn with h | h
      · exact absurd h this.2.1
      · exact absurd h this.2.2
  · obtain ⟨q, hq, hqc, hqp, he, hql⟩ := sep_part true hu hsep
    have hyy := sepBy_y hsep
    rw [he, leading_leadB, ← hlead] at hword htos henough hgaps
    refine ⟨_, _, .sep hq hqc hqp hG, ⟨?_, ?_, ?_, ?_⟩, htos, hword, by rw [List.map_cons, hfst]; rfl, hgaps⟩
    · intro x x' g' t' e
      simp only [List.cons.injEq, Prod.mk.injEq] at e
      rw [← e.1.1] at *
      simp at e
    · intro x t' e hx
      simp only [List.cons.injEq, Prod.mk.injEq] at e
      rw [← e.1.1] at hx
      rcases hst hx with h | h
      · exfalso
        rw [ht', unit_head hu'] at h
        have := e.1.2
        rw [hlead, h] at this
        split at this <;> simp at this
      · exact h
    · intro x g' t' e hx
      simp only [List.cons.injEq, Prod.mk.injEq] at e
      rw [← e.1.1] at hx
      exact absurd hx hnc
    · intro h
      refine henough h ?_ ?_
      · rintro rfl
        rcases hyv with h | h
        · cases h
        · rcases hsep with ⟨-, e⟩ | ⟨-, e⟩ <;> · have := congrArg List.getLast? e; simp at this
      · rintro rfl
        rcases hyv with h | h
        · cases h
        · rcases hsep with ⟨-, e⟩ | ⟨-, e⟩ <;> · have := congrArg List.getLast? e; simp at this

end Jvotci
