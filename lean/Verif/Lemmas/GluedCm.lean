import Verif.Lemmas.GluedBack
import Verif.Lemmas.CmavoWord
import Verif.Lemmas.ExtCmevla
import Verif.SpecCmevla

/-!
# Helper lemmas: reading back cmevla with zi'evla in them

A cmevla is looked at as the beginning of a longer word, with y and bai behind it.
-/

namespace Jvotci

open Spec

/-- y and bai put behind a word. -/
def withY : List (Str × Str) → List (Str × Str)
  | [] => []
  | [(x, _)] => [(x, s%"y"), (s%"bai", [])]
  | p :: q :: t => p :: withY (q :: t)

/-- The part put behind. -/
def baiPart : YPart := ⟨false, s%"bai", false, .rafsi, [s%"bai"]⟩

theorem rafsi_bai {mz : Bool} : Rafsi mz s%"bai" := .cvv (by decide) (by decide) (by decide)

theorem diph_bai : Diph s%"bai" := by
  intro c a b e _ _
  simp only [List.cons.injEq, and_true] at e
  obtain ⟨-, rfl, rfl⟩ := e
  decide

theorem withY_cons (p : Str × Str) {l : List (Str × Str)} (h : l ≠ []) : withY (p :: l) = p :: withY l := by
  cases l with
  | nil => exact absurd rfl h
  | cons q t => rfl

theorem withY_snoc (x g : Str) : ∀ u, withY (u ++ [(x, g)]) = u ++ [(x, s%"y"), (s%"bai", [])]
  | [] => rfl
  | p :: u => by
    rw [List.cons_append, withY_cons _ (by simp), withY_snoc x g u]
    rfl

theorem withY_length : ∀ l : List (Str × Str), l ≠ [] → 2 ≤ (withY l).length
  | [], h => absurd rfl h
  | [_], _ => by simp [withY]
  | p :: q :: t, _ => by
    have := withY_length (q :: t) (by simp)
    simp only [withY, List.length_cons] at *
    omega

/-- The slots behind the first, of a word that ends in a consonant. -/
theorem glue_placed_cm {s : Settings} : ∀ {zs : List Slot}, Placed s zs → (∃ c, ((zs.map Slot.text).flatten).getLast? = some c ∧ Consonant c) →
    ∃ z rest g t g2 t2 p ps, zs = z :: rest ∧ Match zs ((z.rafsi, g) :: t) ∧ withY ((z.rafsi, g) :: t) = (z.rafsi, g2) :: t2 ∧
      Glued s false ((z.rafsi, g2) :: t2) (p :: ps) ∧ p.lead = leadB z.rafsi ∧
      (p.kind = .zihevla → shapeScore z.rafsi = 0) ∧ (∀ q ∈ (z.rafsi, g) :: t, q.2 ≠ s%"r" ∧ q.2 ≠ s%"n") := by
  intro zs h
  induction h with
  | @one z hu hw =>
    intro hv
    obtain ⟨h, ht, htr⟩ := hw
    simp only [List.map_cons, List.map_nil, List.flatten_cons, List.flatten_nil, List.append_nil] at hv
    obtain ⟨c, hc, hcv⟩ := hv
    have hcy : c ≠ 'y' := by rintro rfl; revert hcv; decide
    have hca : c ≠ '\'' := by rintro rfl; revert hcv; decide
    have hend : ∀ u, h ≠ u ++ s%"y" := by
      rintro u rfl
      rw [ht, ← List.append_assoc, List.getLast?_concat] at hc
      cases hc
      exact hcy rfl
    have hlast : h = [] → z.rafsi.getLast? = some c := by
      rintro rfl
      rw [ht, List.append_nil, List.getLast?_append] at hc
      obtain ⟨d, hd, -⟩ := unit_last hu
      rw [hd] at hc ⊢
      simpa using hc
    have hh : h = [] := by
      have hne := unit_exp hu
      cases hk : z.kind with
      | vv => rw [hk] at htr; simp [Trailing] at htr; exact htr
      | ccv =>
        rw [hk] at htr; simp [Trailing] at htr; rcases htr with rfl | rfl
        · rfl
        · exact absurd rfl (hend s%"'")
      | cvc => rw [hk] at htr; simp [Trailing] at htr; exact htr
      | short => rw [hk] at htr; simp [Trailing] at htr; exact htr.1
      | long => rw [hk] at htr; simp [Trailing] at htr; exact htr
      | exp => exact absurd hk hne
    subst hh
    have hzl := hlast rfl
    rw [List.append_nil] at ht
    have hM := Match.one ht
    have hk : z.kind = .cvc ∨ z.kind = .short := by
      generalize z.kind = k at hu
      cases hu with
      | rafsi hr _ =>
        obtain ⟨l, hl, h1, h2⟩ := rk_last (rafsi_rk hr)
        rw [hzl] at hl
        cases hl
        have := rafsi_kind hr
        cases hkk : kindOf z.rafsi with
        | cvc => exact .inl rfl
        | short => exact .inr rfl
        | vv => exact absurd hcv (vowel_not_consonant (h2 (by simp [hkk])))
        | ccv => exact absurd hcv (vowel_not_consonant (h2 (by simp [hkk])))
        | long => exact absurd hcv (vowel_not_consonant (h2 (by simp [hkk])))
        | exp => exact absurd hkk this
      | whole hz =>
        obtain ⟨d, hd, hdv⟩ := hz.form.vowel
        rw [hzl] at hd
        cases hd
        exact absurd hcv (vowel_not_consonant hdv)
      | cut => exact .inr rfl
    obtain ⟨q, hq, hqc, hqp, he, hql⟩ := sep_part false hu (h := s%"y") (.inr ⟨hk, rfl⟩)
    have hG : Glued s false ((z.rafsi, (if q.trail then s%"'" else []) ++ s%"y" ++ (if baiPart.lead then s%"'" else [])) :: (s%"bai", []) :: [])
        (q :: [baiPart]) :=
      .sep hq hqc hqp (.last rafsi_bai diph_bai ⟨'i', rfl, by decide⟩)
    have he2 : (if q.trail then s%"'" else []) ++ s%"y" ++ (if baiPart.lead then s%"'" else []) = s%"y" := by
      rw [← he]
      rfl
    rw [he2] at hG
    refine ⟨z, [], [], [], _, _, _, _, rfl, hM, rfl, hG, by simpa using hql, ?_, by simp⟩
    intro hk
    rw [← hqc]
    cases hq with
    | cvc => cases hk
    | rafsi => cases hk
    | whole h => exact zwhole_shape h
    | cut h => exact zcut_shape h
  | @cons z z' zs hu hw hj hP ih =>
    intro hv
    have hv' : ∃ c, ((((z' :: zs).map Slot.text).flatten).getLast?) = some c ∧ Consonant c := by
      obtain ⟨c, hc, hcv⟩ := hv
      refine ⟨c, ?_, hcv⟩
      rw [List.map_cons, List.flatten_cons, List.getLast?_append] at hc
      cases hg : (((z' :: zs).map Slot.text).flatten).getLast? with
      | some d => rw [hg] at hc; simpa using hc
      | none =>
        exfalso
        rw [List.getLast?_eq_none_iff, List.flatten_eq_nil_iff] at hg
        have h1 := hg z'.text (by simp)
        obtain ⟨hu', last, h', ht', -⟩ := placed_head hP
        rw [h1] at ht'
        have := congrArg List.length ht'
        have := List.length_pos_iff.2 (unit_ne hu')
        simp at *
        omega
    obtain ⟨z2, rest, g, t, g2, t2, p, ps, e, hM, hwy, hG, hlead, hkind, hrn⟩ := ih hv'
    cases e
    obtain ⟨h, ht, htr⟩ := hw
    obtain ⟨hu', last, hw'⟩ := placed_head hP
    have hM' := Match.cons ht hM
    have hwy' : ∀ g0, withY ((z.rafsi, g0) :: (z'.rafsi, g) :: t) = (z.rafsi, g0) :: (z'.rafsi, g2) :: t2 := by
      intro g0
      rw [withY_cons _ (by simp), hwy]
    rcases trailing_mid htr (unit_exp hu) with ⟨rfl, hk⟩ | hsep
    · have hr : Rafsi s.allowMz z.rafsi ∧ Diph z.rafsi ∧ z.kind = kindOf z.rafsi := by
        generalize z.kind = k at hu hk
        cases hu with
        | rafsi h1 h2 => exact ⟨h1, h2, rfl⟩
        | whole => rcases hk with h | h | h <;> cases h
        | cut => rcases hk with h | h | h <;> cases h
      obtain ⟨hr, hd, hkk⟩ := hr
      rw [leading_rafsi hr, List.nil_append, List.append_nil] at ht
      obtain ⟨hr', hlk, hs⟩ := bare_link hr (hkk ▸ hk) ht hu' hw' hj
      rw [leading_rafsi hr', List.append_nil] at hM'
      refine ⟨z, z' :: zs, _, _, _, _, _, _, rfl, hM', hwy' _, .bare hr hd hlk hG (fun h => hs (hkind h)), (leadB_rafsi hr).symm, by simp, ?_⟩
      intro q hq
      rcases List.mem_cons.1 hq with rfl | hq
      · simp
      · exact hrn q hq
    · obtain ⟨q, hq, hqc, hqp, rfl, hql⟩ := sep_part false hu hsep
      rw [leading_leadB, ← hlead] at hM'
      refine ⟨z, z' :: zs, _, _, _, _, q, p :: ps, rfl, hM', hwy' _, .sep hq hqc hqp hG, by simpa using hql, ?_, ?_⟩
      · intro hk
        rw [← hqc]
        cases hq with
        | cvc => cases hk
        | rafsi => cases hk
        | whole h => exact zwhole_shape h
        | cut h => exact zcut_shape h
      · intro r hr
        rcases List.mem_cons.1 hr with rfl | hr
        · constructor <;>
          · intro e
            have : 'y' ∈ (if q.trail then s%"'" else []) ++ s%"y" ++ (if p.lead then s%"'" else []) := by simp
            rw [show (if q.trail then s%"'" else []) ++ s%"y" ++ (if p.lead then s%"'" else []) = _ from e] at this
            revert this
            decide
        · exact hrn r hr

theorem match_last {zs : List Slot} {l : List (Str × Str)} (h : Match zs l) : ∃ u z, l = u ++ [(z, [])] := by
  induction h with
  | one _ => exact ⟨[], _, rfl⟩
  | cons _ _ ih =>
    obtain ⟨u, z, e⟩ := ih
    exact ⟨_ :: u, z, by rw [e]; rfl⟩

/-- The slots of a cmevla, put together. -/
theorem glue_slots_cm {s : Settings} {y z : Slot} {rest : List Slot} {hy : Str} (hu : UnitOf s y.rafsi y.kind) (hw : y.Written true false)
    (hP : Placed s (z :: rest)) (hL : Legal s true (y :: z :: rest) hy) :
    ∃ l ps, Glued s true (withY l) ps ∧ (∀ x g t, withY l = (x, g) :: t → pattern x = s%"CCV" → g.head? ≠ some '\'') ∧
      wordOf (y :: z :: rest) hy = spell l ∧ l.map Prod.fst = (y :: z :: rest).map Slot.rafsi ∧ (∀ q ∈ l, q.2 ≠ s%"r" ∧ q.2 ≠ s%"n") ∧
      (∃ u z, l = u ++ [(z, [])]) ∧ Gaps true (y :: z :: rest) l := by
  obtain ⟨y', z', rest', e, hF⟩ := hL.first
  cases e
  have hj := hL.joints y z ⟨[], rest, rfl⟩
  obtain ⟨hu', last, hw'⟩ := placed_head hP
  have hw'0 := hw'
  obtain ⟨h', ht', htr'⟩ := hw'
  have hv : ∃ c, ((((z :: rest).map Slot.text).flatten).getLast?) = some c ∧ Consonant c := by
    obtain ⟨c, hc, hcv⟩ := hL.ends
    refine ⟨c, ?_, by simpa using hcv⟩
    rw [wordOf, List.getLast?_append] at hc
    cases hg : (((z :: rest).map Slot.text).flatten).getLast? with
    | some d => rw [hg] at hc; simpa using hc
    | none =>
      exfalso
      rw [List.getLast?_eq_none_iff, List.flatten_eq_nil_iff] at hg
      have h1 := hg z.text (by simp)
      rw [h1] at ht'
      have := congrArg List.length ht'
      have := List.length_pos_iff.2 (unit_ne hu')
      simp at *
      omega
  obtain ⟨z2, rest2, g, t, g2, t2, p, ps, e, hM, hwy, hG, hlead, hkind, hrn⟩ := glue_placed_cm hP hv
  cases e
  obtain ⟨h, ht, htr⟩ := hw
  rw [show leading true y.rafsi = [] by simp [leading], List.nil_append] at ht
  have hsp := match_spell hM z rest rfl
  have hword : wordOf (y :: z :: rest) hy = spell ((y.rafsi, h ++ hy ++ leading false z.rafsi) :: (z.rafsi, g) :: t) := by
    rw [wordOf, hsp, ht, spell_cons (h := h ++ hy ++ leading false z.rafsi)]
    simp only [List.append_assoc]
  have hfst := match_fst hM
  have hgaps : Gaps true (y :: z :: rest) ((y.rafsi, h ++ hy ++ leading false z.rafsi) :: (z.rafsi, g) :: t) := by
    have := trailing_gap (u := hy ++ leading false z.rafsi) htr
    rw [← List.append_assoc] at this
    exact .cons this.1 this.2 (match_gaps hM hP fun h => by cases h) (by simp)
  have hml : ∀ p : Str × Str, ∃ u x, p :: (z.rafsi, g) :: t = u ++ [(x, ([] : Str))] := by
    intro p
    obtain ⟨u, x, e⟩ := match_last hM
    exact ⟨p :: u, x, by rw [e]; rfl⟩
  have hwy' : ∀ g0, withY ((y.rafsi, g0) :: (z.rafsi, g) :: t) = (y.rafsi, g0) :: (z.rafsi, g2) :: t2 := by
    intro g0
    rw [withY_cons _ (by simp), hwy]
  rcases first_cases hu ht htr hF with ⟨he, hr, hd, hk, -⟩ | ⟨h0, -⟩ | ⟨hsep, hyv, hnc, hst⟩
  · obtain ⟨rfl, rfl⟩ := List.append_eq_nil_iff.1 he
    rw [List.append_nil] at ht
    obtain ⟨hr', hlk, hs⟩ := bare_link hr hk ht hu' hw'0 hj
    have hl0 := leading_rafsi hr' false
    rw [hl0] at hword hgaps
    have hG' := Glued.bare (f := true) hr hd hlk hG (fun h => hs (hkind h))
    rw [← hwy'] at hG'
    refine ⟨_, _, hG', ?_, hword, by rw [List.map_cons, hfst]; rfl, ?_, hml _, hgaps⟩
    · intro x g' t' e _
      rw [hwy'] at e
      cases e
      simp
    · intro q hq
      rcases List.mem_cons.1 hq with rfl | hq
      · simp
      · exact hrn q hq
  · cases h0
  · obtain ⟨q, hq, hqc, hqp, he, hql⟩ := sep_part true hu hsep
    rw [he, leading_leadB, ← hlead] at hword hgaps
    have hG' := Glued.sep hq hqc hqp hG
    rw [← hwy'] at hG'
    refine ⟨_, _, hG', ?_, hword, by rw [List.map_cons, hfst]; rfl, ?_, hml _, hgaps⟩
    · intro x g' t' e hx
      rw [hwy'] at e
      simp only [List.cons.injEq, Prod.mk.injEq] at e
      rw [← e.1.1] at hx
      exact absurd hx hnc
    · intro r hr
      rcases List.mem_cons.1 hr with rfl | hr
      · constructor <;>
        · intro e
          have : 'y' ∈ (if q.trail then s%"'" else []) ++ s%"y" ++ (if p.lead then s%"'" else []) := by simp
          rw [show (if q.trail then s%"'" else []) ++ s%"y" ++ (if p.lead then s%"'" else []) = _ from e] at this
          revert this
          decide
      · exact hrn r hr

/-- The parts of the longer word are those of the word and one more. -/
theorem glued_drop {s : Settings} {f : Bool} {m : List (Str × Str)} {ps : List YPart} (h : Glued s f m ps) :
    ∀ l, l ≠ [] → m = withY l → ∃ u q, ps = u ++ [q] ++ [baiPart] ∧ q.trail = false := by
  have tail : ∀ {l : List (Str × Str)} {p : Str × Str} {t : List (Str × Str)}, l ≠ [] → p :: t = withY l → p.2 ≠ s%"y" →
      ∃ l', l' ≠ [] ∧ t = withY l' := by
    intro l p t hl e hp
    match l, hl with
    | [(x, g)], _ =>
      cases e
      exact absurd rfl hp
    | a :: b :: l, _ =>
      cases e
      exact ⟨b :: l, by simp, rfl⟩
  induction h with
  | last =>
    intro l hl e
    have := withY_length l hl
    rw [← e] at this
    simp at this
  | zlast =>
    intro l hl e
    have := withY_length l hl
    rw [← e] at this
    simp at this
  | @bare f x x' g' t p ps _ _ _ h hk ih =>
    intro l hl e
    obtain ⟨l', hl', e'⟩ := tail hl e (by simp)
    obtain ⟨u, q, e2, hq⟩ := ih l' hl' e'
    cases u with
    | nil =>
      cases e2
      exact ⟨[], _, rfl, hq⟩
    | cons a u =>
      cases e2
      exact ⟨_ :: u, q, rfl, hq⟩
  | @rn _ x g x' g' t p ps _ _ _ hg _ _ h hk ih =>
    intro l hl e
    obtain ⟨l', hl', e'⟩ := tail hl e (by rintro rfl; simp at hg)
    obtain ⟨u, q, e2, hq⟩ := ih l' hl' e'
    cases u with
    | nil =>
      cases e2
      exact ⟨[], _, rfl, hq⟩
    | cons a u =>
      cases e2
      exact ⟨_ :: u, q, rfl, hq⟩
  | @sep f x x' g' t q p ps hq hc hp h ih =>
    intro l hl e
    match l, hl with
    | [(z, g)], _ =>
      simp only [withY, List.cons.injEq, Prod.mk.injEq] at e
      obtain ⟨⟨-, eg⟩, ⟨rfl, rfl⟩, rfl⟩ := e
      have hps : p :: ps = [baiPart] := by
        generalize hff : false = f at h
        generalize hll : [(s%"bai", ([] : Str))] = ll at h
        generalize hqq : p :: ps = qq at h
        cases h with
        | last => cases hll; rfl
        | zlast hz => cases hll; exact absurd ⟨'b', 'a', 'i', by decide, by decide, .inl rfl⟩ (zwhole_not_vv hz)
        | bare => cases hll
        | rn => cases hll
        | sep => simp at hll
      refine ⟨[], q, by rw [hps]; rfl, ?_⟩
      cases ht : q.trail with
      | false => rfl
      | true => rw [ht] at eg; cases eg
    | a :: b :: l, _ =>
      simp only [withY, List.cons.injEq] at e
      obtain ⟨u, q', e2, hq'⟩ := ih (b :: l) (by simp) e.2
      exact ⟨q :: u, q', by rw [e2]; rfl, hq'⟩

theorem spell_withY {u : List (Str × Str)} {z : Str} : spell (withY (u ++ [(z, [])])) = spell (u ++ [(z, [])]) ++ s%"ybai" := by
  rw [withY_snoc]
  simp [spell]

theorem flat_withY {u : List (Str × Str)} {z : Str} : flat (withY (u ++ [(z, [])])) = flat (u ++ [(z, [])]) ++ [s%"y", s%"bai"] := by
  rw [withY_snoc]
  simp [flat, piecesOf]

/-- The parts of a cmevla. -/
theorem cm_parts {s : Settings} {l u : List (Str × Str)} {z : Str} {ps' : List YPart} (h : Glued s true (withY l) ps') (el : l = u ++ [(z, [])]) :
    ∃ ps, ps ≠ [] ∧ ps' = ps ++ [baiPart] ∧ joinParts ps = spell l ∧ joinPieces ps = flat l := by
  obtain ⟨v, q, rfl, hq⟩ := glued_drop h l (by rw [el]; simp) rfl
  refine ⟨v ++ [q], by simp, rfl, ?_, ?_⟩
  · have hlead : ∀ p w, v ++ [q] ++ [baiPart] = p :: w → p.lead = false := by
      intro p w e
      have hP := (glued_parts h).1
      rw [e] at hP
      cases hP with
      | one hp => exact pseg_first_lead hp
      | cons hp _ => exact pseg_first_lead hp
    have hne : ∃ p w, v ++ [q] ++ [baiPart] = p :: w := by
      cases v with
      | nil => exact ⟨_, _, rfl⟩
      | cons a v => exact ⟨_, _, rfl⟩
    obtain ⟨p, w, e⟩ := hne
    have := glued_spell h p w e
    rw [hlead p w e, joinParts_last (by simp), el, spell_withY, ← el] at this
    have e2 : s%"y" ++ baiPart.text = s%"ybai" := rfl
    rw [List.append_assoc, e2] at this
    simpa using this
  · have := glued_flat h
    rw [joinPieces_snoc, hq, el, flat_withY, ← el] at this
    have e2 : [(if false = true then s%"'" else []) ++ s%"y" ++ (if baiPart.lead = true then s%"'" else [])] ++ baiPart.pieces = [s%"y", s%"bai"] := rfl
    rw [List.append_assoc, e2] at this
    exact List.append_cancel_right this

/-- A y that is needed stands behind a consonant. -/
theorem cmevlaPieces_y {s : Settings} {qs : List Str} (h : CmevlaPieces s qs) : ∀ u p v, qs = u ++ p :: s%"y" :: v →
    ∃ c, p.getLast? = some c ∧ Consonant c := by
  rintro u p v rfl
  have hlk := h.reading.links u p s%"y" v rfl
  have hp : Rafsi s.allowMz p ∧ p.length < 5 := by
    generalize e : s%"y" = y at hlk
    cases hlk with
    | y h h5 => exact ⟨h, h5⟩
    | rafsi _ h => have := rafsi_length h; rw [← e] at this; simp at this
    | apostropheY => cases e
    | rOrN _ _ _ h => subst e; simp at h
    | afterY _ h => have := rafsi_length h; rw [← e] at this; simp at this
    | afterR h => have := rafsi_length h; rw [← e] at this; simp at this
    | afterN h => have := rafsi_length h; rw [← e] at this; simp at this
  obtain ⟨hp, h5⟩ := hp
  cases v with
  | nil =>
    obtain ⟨z, hz, hzr⟩ := h.reading.last
    simp at hz
    subst hz
    have := rafsi_length hzr
    simp at this
  | cons q v =>
    obtain ⟨c, hc, h1, h2⟩ := rk_last (rafsi_rk hp)
    refine ⟨c, hc, ?_⟩
    have hf := h.y u p q v rfl
    have hq : Rafsi s.allowMz q := by
      have := h.reading.links (u ++ [p]) s%"y" q v (by simp)
      exact link_afterRN this
    have hnl : kindOf p ≠ .long := by
      intro hk
      have h6 := rafsi_rk hp
      rw [hk] at h6
      cases h6 <;> simp at h5
    have : NeedY s.allowMz p q := by
      refine Classical.byContradiction fun hn => hf ?_
      exact (needY_iff hp hq hnl).1 hn
    rcases this with h | ⟨h, -⟩
    · exact h1 (.inr h)
    · exact h1 (.inl h)

/-- A cmevla of rafsi is read as it was made. -/
theorem cm_read {s : Settings} {l u : List (Str × Str)} {z : Str} {ps' : List YPart} (h : Glued s true (withY l) ps') (el : l = u ++ [(z, [])])
    {qs : List Str} (hq : CmevlaPieces s qs) (e : qs.flatten = spell l) : qs = flat l := by
  obtain ⟨ps, hne, rfl, hj, hjp⟩ := cm_parts h el
  obtain ⟨hP, -⟩ := glued_parts h
  have hlead : ∀ p w, ps ++ [baiPart] = p :: w → p.lead = false := by
    intro p w e
    rw [e] at hP
    cases hP with
    | one hp => exact pseg_first_lead hp
    | cons hp _ => exact pseg_first_lead hp
  have hy := hq.y
  have := read_parts hP hlead (qs := qs ++ [s%"y", s%"bai"]) (links_bai hq.reading.links hq.reading.last hq.consonant) ?_ ⟨s%"bai", by simp, rafsi_bai⟩ ?_ ?_ ?_
  · rw [glued_flat h, el, flat_withY, ← el] at this
    exact List.append_cancel_right this
  · obtain ⟨p, hp, hpr⟩ := hq.reading.first
    refine ⟨p, ?_, hpr⟩
    cases qs with
    | nil => cases hp
    | cons a b => exact hp
  · intro q hqm
    rcases List.mem_append.1 hqm with hqm | hqm
    · exact hq.reading.diphthongs q hqm
    · simp at hqm
      rcases hqm with rfl | rfl
      · exact diph_long (by simp)
      · exact diph_bai
  · intro u' p v e'
    rcases List.append_eq_append_iff.1 e' with ⟨a, e1, e2⟩ | ⟨a, e1, e2⟩
    · -- the y is one of the two pieces behind the word
      cases a with
      | nil => simp at e2
      | cons x a =>
        exfalso
        simp only [List.cons_append, List.cons.injEq] at e2
        cases a with
        | nil =>
          simp at e2
        | cons x' a =>
          simp at e2
    · cases a with
      | nil => simp at e2
      | cons x a =>
        simp only [List.cons_append, List.cons.injEq] at e2
        obtain ⟨rfl, e2⟩ := e2
        cases a with
        | nil =>
          obtain ⟨c, hc, hcc⟩ := hq.consonant
          refine ⟨c, ?_, hcc⟩
          obtain ⟨x, hx, hxr⟩ := hq.reading.last
          rw [e1] at hc hx
          simp at hx
          subst hx
          rw [List.flatten_append, getLast?_append_ne _ (by simpa using rafsi_ne hxr)] at hc
          simpa using hc
        | cons x' a =>
          simp only [List.cons_append, List.cons.injEq] at e2
          obtain ⟨rfl, -⟩ := e2
          exact cmevlaPieces_y hq u' _ a e1
  · rw [List.flatten_append, e, joinParts_last hne, hj]
    simp [baiPart, YPart.text]

theorem glued_first_kind {s : Settings} {l : List (Str × Str)} {q p : YPart} (h : Glued s true (withY l) [q, p]) (h2 : 2 ≤ l.length) :
    q.kind = .rafsi := by
  generalize hf : true = f at h
  generalize hl : withY l = m at h
  generalize hq : [q, p] = qs at h
  cases h with
  | last => cases hf
  | zlast => cases hf
  | bare => cases hq; rfl
  | rn => cases hq; rfl
  | @sep _ x x' g' t q' p' ps hq' hc hp h =>
    exfalso
    cases hq
    match l, h2 with
    | a :: b :: t', _ =>
      simp only [withY, List.cons.injEq] at hl
      obtain ⟨u, q2, e, -⟩ := glued_drop h (b :: t') (by simp) hl.2.symm
      have := congrArg List.length e
      simp at this

/-- A cmevla put together of rafsi and zi'evla. -/
theorem cm_word {s : Settings} {l u : List (Str × Str)} {z : Str} {ps' : List YPart} (h : Glued s true (withY l) ps') (el : l = u ++ [(z, [])])
    (h2 : 2 ≤ l.length) (hccv : ∀ x g t, withY l = (x, g) :: t → pattern x = s%"CCV" → g.head? ≠ some '\'')
    (hrn : ∀ q ∈ l, q.2 ≠ s%"r" ∧ q.2 ≠ s%"n") (hcl : ∀ q ∈ l, ∃ c ∈ q.1, Vowel c)
    (hend : ∃ c, (spell l).getLast? = some c ∧ Consonant c) (hlen : (spell l).length < 10 ^ 94)
    (hfall : ¬ BeginningFallsOff s (spell l))
    (hsl : ¬ SlinkuhiCmevla s (spell l)) :
    analyseBrivla .linked s (spell l) = .ok (.cmevla, flat l) ∨
      (analyseBrivla .linked s (spell l) = .error .index ∧ isSlinkuhi (program .linked) s.yHyphens s.allowMz (spell l) = .error .index) := by
  obtain ⟨ps, hne, rfl, hj, hjp⟩ := cm_parts h el
  obtain ⟨hP, -⟩ := glued_parts h
  have hread : reading (spell l) = spell l := by
    refine reading_lettersY fun c hc => parts_letters hP c ?_
    rw [joinParts_last hne, hj]
    simp [hc]
  have hlen6 : (spell l).length < 10 ^ 96 := Nat.lt_of_lt_of_le hlen (Nat.pow_le_pow_right (by decide) (by decide))
  have hseg : ∀ u p v, ps = u ++ p :: v → PSeg s u.isEmpty false p := by
    intro u p v e
    rw [e, List.append_assoc, List.cons_append] at hP
    have := parts_split hP
    rw [show (v ++ [baiPart]).isEmpty = false by cases v <;> rfl] at this
    simpa using this
  by_cases hex : ∃ qs, CmevlaPieces s qs ∧ qs.flatten = spell l
  · obtain ⟨qs, hq, e⟩ := hex
    have := cm_read h el hq e
    subst this
    exact .inl (C42_every_cmevla (by rw [hread, e]) hq (by rw [e]; exact hlen6))
  · by_cases hp2 : 2 ≤ ps.length
    · refine (extendedCmevla_of (w := spell l) (by rw [hread]; exact hlen) (by rw [hread, hj]) ⟨hp2, ?_, ?_, ?_, ?_, ?_⟩).imp (fun h => by rw [h, hjp]) (fun h => by rwa [hread] at h)
      · intro u' p v e
        refine pseg_ok (hseg u' p v e) (fun h => by cases h) ?_
        intro hf hk
        cases u' with
        | cons a u' => cases hf
        | nil =>
          cases v with
          | nil => rw [e] at hp2; simp at hp2
          | cons p2 v =>
            have hs := hseg [] p (p2 :: v) e
            have hl := pseg_first_lead hs
            have hjj : spell l = p.core ++ (if p.trail then s%"'y" else s%"y") ++ joinParts (p2 :: v) := by
              rw [← hj, e]
              show joinParts (p :: p2 :: v) = _
              rw [joinParts]
              cases ht : p.trail <;> simp [YPart.text, hl, ht]
            intro hfo
            have hends : (p.trail = false → ∃ c, p.core.getLast? = some c ∧ Consonant c) ∧ (p.trail = true → ∃ c, p.core.getLast? = some c ∧ Vowel c) ∧
                ∃ qs, Reading s.yHyphens s.allowMz qs ∧ qs.flatten = p.core := by
              generalize ([] : List YPart).isEmpty = b at hs
              cases hs with
              | cvc => cases hk
              | @rafsi _ _ _ ps0 hr e' _ _ _ h1 h2 =>
                refine ⟨?_, fun ht => h2 (.inl ht), _, hr, e'⟩
                intro ht
                subst e'
                obtain ⟨p, hp, hkp⟩ := h1 ht rfl
                obtain ⟨p', hp', hpr⟩ := hr.last
                rw [hp] at hp'
                cases hp'
                obtain ⟨u, rfl⟩ := List.getLast?_eq_some_iff.1 hp
                obtain ⟨l, hl, hc, -⟩ := rk_last (rafsi_rk hpr)
                refine ⟨l, ?_, hc hkp⟩
                simp only [List.flatten_append]
                rw [getLast?_append_ne _ (by simpa using rafsi_ne hpr)]
                simpa using hl
              | whole => cases hk
              | cut => cases hk
            refine hfall ⟨p.core, joinParts (p2 :: v), ?_, pseg_noY hs, hends.2.2, hfo⟩
            rw [hjj]
            cases ht : p.trail
            · exact .inl ⟨rfl, hends.1 ht⟩
            · exact .inr ⟨rfl, hends.2.1 ht⟩
      · rw [hj]; exact hend
      · intro a b c v hi hv e
        refine glued_begin h hccv hi hv (v := v ++ s%"ybai") ?_
        rw [joinParts_last hne, e]
        simp [baiPart, YPart.text]
      · rw [hj]
        exact fun qs hq e => hex ⟨qs, hq, e⟩
      · rw [hj]
        exact fun hc qs hq e => hsl ⟨hc, qs, hq, e⟩
    · exfalso
      obtain ⟨p, rfl⟩ : ∃ p, ps = [p] := by
        match ps, hne, hp2 with
        | [p], _, _ => exact ⟨p, rfl⟩
        | a :: b :: v, _, h => simp at h
      have hk : p.kind = .rafsi := glued_first_kind h h2
      have hs := hseg [] p [] rfl
      have hny := pseg_noY hs
      have hr : Reading s.yHyphens s.allowMz p.pieces ∧ p.pieces.flatten = p.core := by
        generalize ([] : List YPart).isEmpty = b at hs
        cases hs with
        | cvc => cases hk
        | rafsi hr e => exact ⟨hr, e⟩
        | whole => cases hk
        | cut => cases hk
      obtain ⟨hr, hf⟩ := hr
      have hpl : p.pieces = flat l := hjp
      have hsp : p.core = spell l := by
        obtain ⟨v, q, e, hqt⟩ := glued_drop h l (by intro e; rw [e] at h2; simp at h2) rfl
        have e := List.append_cancel_right e
        cases v with
        | cons a v => have := congrArg List.length e; simp at this
        | nil =>
          cases e
          rw [← hj]
          simp [joinParts, YPart.text, hqt, pseg_first_lead hs]
      refine hex ⟨p.pieces, ⟨hr, ?_, by rw [hf, hsp]; exact hend, ?_, ?_, ?_⟩, by rw [hf, hsp]⟩
      · rw [hpl]
        match l, h2 with
        | (a, g) :: (b, g') :: t, _ =>
          rw [flat_cons, flat_cons]
          have : ∀ q : Str × Str, 1 ≤ (piecesOf q).length := by
            intro q
            unfold piecesOf
            split <;> simp
          have h1 := this (a, g)
          have h3 := this (b, g')
          simp only [List.length_append]
          omega
      · intro u' a b v e
        exact absurd (by rw [← hf, e]; simp) hny
      · intro hm
        exact absurd (by rw [← hf]; exact List.mem_flatten.2 ⟨_, hm, by simp⟩) hny
      · intro a b v e
        exfalso
        have hm : s%"r" ∈ flat l ∨ s%"n" ∈ flat l := by
          rw [← hpl]
          rcases e with e | e <;> rw [e] <;> simp
        have key : ∀ x, (x = s%"r" ∨ x = s%"n") → x ∉ flat l := by
          intro x hx hm
          unfold flat at hm
          obtain ⟨y, hy, hxy⟩ := List.mem_flatten.1 hm
          obtain ⟨q, hq, rfl⟩ := List.mem_map.1 hy
          have h3 : x = q.1 ∨ x = q.2 := by
            unfold piecesOf at hxy
            split at hxy
            · simp at hxy; exact .inl hxy
            · simpa using hxy
          rcases h3 with rfl | rfl
          · obtain ⟨c, hc, hcv⟩ := hcl q hq
            rcases hx with e | e <;> rw [e] at hc <;> simp at hc <;> subst hc <;> revert hcv <;> decide
          · rcases hx with e | e
            · exact (hrn q hq).1 e
            · exact (hrn q hq).2 e
        exact hm.elim (key _ (.inl rfl)) (key _ (.inr rfl))

theorem fallsOff_long {s : Settings} {x : Str} (h : FallsOff s x) : 5 ≤ x.length := by
  obtain ⟨x, m, rfl, h1, h2⟩ := h
  have hm : 3 ≤ m.length := by
    rcases h2 with ⟨h, -⟩ | ⟨qs, rfl, h | h⟩
    · exact (rafsi_length h).1
    · have := pieces_long h.reading h.two
      omega
    · have := pieces_long h.reading h.two
      omega
  have hx : 2 ≤ x.length := by
    rcases h1 with ⟨c, a, b, -, -, rfl | rfl⟩ | ⟨h, -⟩
    · simp
    · simp
    · have := congrArg List.length h
      simp [pattern] at this
      omega
  simp
  omega

/-- Conversely, an extended cmevla has neither fault. -/
theorem extendedCmevla_sound {s : Settings} {ps : List YPart} (h : ExtendedCmevla s ps) :
    ¬ BeginningFallsOff s (joinParts ps) ∧ ¬ SlinkuhiCmevla s (joinParts ps) := by
  refine ⟨?_, fun ⟨hc, qs, hq, e⟩ => h.slinkuhi hc qs hq e⟩
  rintro ⟨x, v, hx, hny, ⟨qs, hqs, hqf⟩, hfo⟩
  match ps, h.two, h with
  | p :: q :: w, _, h =>
    have hp := h.parts [] p (q :: w) rfl
    have hl : p.lead = false := by
      cases hl : p.lead with
      | false => rfl
      | true => have := (hp.lead hl).1; cases this
    have hxa : x.getLast? ≠ some '\'' := by
      intro e
      rcases hx with ⟨-, c, hc, h⟩ | ⟨-, c, hc, h⟩ <;> rw [e] at hc <;> cases hc <;> revert h <;> decide
    have key : p.core = x ∧ (p.trail = true ∨ ∃ c, x.getLast? = some c ∧ Consonant c) := by
      have e1 : joinParts (p :: q :: w) = (p.core ++ (if p.trail then s%"'" else [])) ++ 'y' :: joinParts (q :: w) := by
        rw [joinParts]
        simp [YPart.text, hl]
      have hn : 'y' ∉ p.core ++ (if p.trail then s%"'" else []) := by
        rw [List.mem_append]
        rintro (hm | hm)
        · exact hp.noY hm
        · split at hm <;> revert hm <;> decide
      rcases hx with ⟨e2, hc⟩ | ⟨e2, hc⟩
      · have := cut_at hn hny (e1.symm.trans (by rw [e2]; simp : joinParts (p :: q :: w) = x ++ 'y' :: v))
        cases ht : p.trail with
        | false => rw [ht] at this; simp at this; exact ⟨this.1, .inr hc⟩
        | true =>
          rw [ht] at this
          rw [← this.1] at hxa
          simp at hxa
      · have := cut_at hn (u' := x ++ s%"'") (by simp [hny]) (e1.symm.trans (by rw [e2]; simp : joinParts (p :: q :: w) = (x ++ s%"'") ++ 'y' :: v))
        cases ht : p.trail with
        | false =>
          rw [ht] at this
          simp at this
          have h3 := hp.ends
          rw [this.1] at h3
          simp at h3
        | true =>
          rw [ht] at this
          exact ⟨List.append_cancel_right (this.1 : p.core ++ s%"'" = x ++ s%"'"), .inl rfl⟩
    obtain ⟨rfl, ht⟩ := key
    have hk := hp.kind
    cases hkk : p.kind with
    | cvc =>
      rw [hkk] at hk
      have h1 := congrArg List.length hk.1
      have h2 := fallsOff_long hfo
      simp [pattern] at h1
      omega
    | rafsi => rw [hkk] at hk; exact hk.tosmabru rfl hfo
    | zihevla => rw [hkk] at hk; exact hk.unreadable (ht.imp id .inr) qs hqs hqf
    | exp => rw [hkk] at hk; exact hk.unreadable qs hqs hqf

end Jvotci
