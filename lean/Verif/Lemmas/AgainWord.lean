import Verif.Lemmas.AgainThin

/-!
# Helper lemmas: a lujvo for the components of an extended lujvo
-/

namespace Jvotci

open Spec

theorem unit_not_hyphen {s : Settings} {x : Str} {k : Kind} (h : UnitOf s x k) : ¬ Hyphen x := by
  obtain ⟨c, hc, hcv⟩ := unit_vowel h
  intro hh
  simp only [Hyphen, List.mem_cons, List.not_mem_nil, or_false] at hh
  rcases hh with h | h | h | h | h | h <;> rw [h] at hc <;> simp only [List.mem_cons, List.not_mem_nil, or_false] at hc
  · subst hc; exact absurd hcv (by decide)
  · subst hc; exact absurd hcv (by decide)
  · subst hc; exact absurd hcv (by decide)
  · rcases hc with rfl | rfl <;> exact absurd hcv (by decide)
  · rcases hc with rfl | rfl <;> exact absurd hcv (by decide)
  · rcases hc with rfl | rfl | rfl <;> exact absurd hcv (by decide)

/-- The pieces of a part that consists of rafsi. -/
theorem part_pieces_kind {s : Settings} {cm f last nl : Bool} {cl : Prop} {p : YPart} (h : RafsiPart s cm f last nl cl p) (hy : 'y' ∉ p.core) :
    ∀ x ∈ p.pieces, (Rafsi s.allowMz x ∧ Diph x) ∨ x ∈ [s%"r", s%"n"] := by
  intro x hx
  rcases reading_pieces' h.reading x hx with hr | hr
  · exact .inl ⟨hr, fun c a b e => h.reading.diphthongs x hx c a b e⟩
  · simp only [List.mem_cons, List.not_mem_nil, or_false] at hr ⊢
    rcases hr with rfl | rfl | rfl | rfl
    · exact .inr (.inl rfl)
    · exact .inr (.inr rfl)
    · exact absurd (h.core ▸ List.mem_flatten.2 ⟨_, hx, by simp⟩) hy
    · exact absurd (h.core ▸ List.mem_flatten.2 ⟨_, hx, by simp⟩) hy

theorem part_single {s : Settings} {cm f last nl : Bool} {cl : Prop} {p : YPart} (h : PartOk s cm f last nl cl p) (hk : p.kind ≠ .rafsi) : p.pieces = [p.core] := by
  have hkind := h.kind
  cases hkk : p.kind with
  | cvc => rw [hkk] at hkind; exact hkind.2
  | rafsi => exact absurd hkk hk
  | zihevla => rw [hkk] at hkind; exact hkind.pieces
  | exp => rw [hkk] at hkind; exact hkind.pieces

theorem lead_rafsi {s : Settings} {cm f last nl : Bool} {cl : Prop} {p : YPart} (h : RafsiPart s cm f last nl cl p) : leading false p.core = [] := by
  obtain ⟨q0, hq0, hr0⟩ := h.reading.first
  obtain ⟨a, t, rfl, ha⟩ := rafsi_first hr0
  rw [← h.core]
  match hpp : p.pieces, hq0 with
  | _ :: r, rfl =>
    unfold leading
    rw [if_neg]
    rintro ⟨-, hv, -⟩
    exact vowel_not_consonant hv ((isConsonant_iff _).1 ha)

theorem last_piece {s : Settings} {cm f last nl : Bool} {cl : Prop} {p : YPart} (h : RafsiPart s cm f last nl cl p) {x : Str}
    (hx : p.pieces.getLast? = some x) : Rafsi s.allowMz x ∧ x.getLast? = p.core.getLast? := by
  obtain ⟨q, hq, hqr⟩ := h.reading.last
  rw [hq] at hx
  cases hx
  refine ⟨hqr, ?_⟩
  obtain ⟨u, hu⟩ := List.getLast?_eq_some_iff.1 hq
  rw [← h.core, hu, List.flatten_append]
  obtain ⟨l, hl, -⟩ := rafsi_lastLetter hqr
  simp [List.getLast?_append, hl]

/-- Slots for a part that is not the first. -/
theorem thin_part {s : Settings} {cm f last nl : Bool} {cl : Prop} {p : YPart} {e : List Str} (h : PartOk s cm false last nl cl p)
    (hexp : s.expRafsi = false) (hlen : p.core.length + 2 < 10 ^ 90) (hg : p.lead = true → ¬ Onglide p.core) (hs : PartShown s p f last e) :
    ∃ zs txt, Slotted s last e zs (p.pieces.filter (fun x => ¬ Hyphen x)) txt ∧
      Thin (glueCount p.pieces) txt (p.text ++ if last then [] else s%"y") := by
  by_cases hk : p.kind = .rafsi
  · have htx : p.text ++ (if last then [] else s%"y") = (if p.lead then s%"'" else []) ++ p.core ++ suffix last p.trail := by
      unfold YPart.text suffix
      cases ht : p.trail with
      | true =>
        have := (h.trail ht).1
        subst this
        simp
      | false => cases last <;> simp
    have hkind := h.kind
    rw [hk] at hkind
    rw [htx, ← part_leading h hg, lead_rafsi hkind, List.nil_append, ← hkind.core]
    unfold PartShown at hs
    rw [hk] at hs
    have hR := part_pieces_kind hkind h.noY
    obtain ⟨zs, hz, -⟩ := slotted_bare (s := s) (last := last) (trail := p.trail) _ (Nat.le_refl _) hkind.reading.first hkind.reading.last hR hkind.reading.links hs (by
      intro x hx
      obtain ⟨hqr, hql⟩ := last_piece hkind hx
      exact trailing_rafsi hqr (fun ht => hql ▸ (h.trail ht).2) (fun h1 h2 => hql ▸ hkind.ends h1 h2))
    exact ⟨zs, _, hz, (thin_pieces (fun x hx => (hR x hx).imp And.left id) hkind.reading.first hkind.reading.last).append (thin_refl _)⟩
  · have hone := part_single h hk
    have hrn : s%"r" ∉ p.pieces ∧ s%"n" ∉ p.pieces := by
      have key : ∀ c, p.core = [c] → Consonant c → False := by
        intro c hc hcc
        have hkind := h.kind
        cases hkk : p.kind with
        | cvc =>
          rw [hkk] at hkind
          obtain ⟨a, b, c, e1, -⟩ := tarmi_cvc.1 (pattern_cvc.1 hkind.1)
          rw [hc] at e1
          cases e1
        | rafsi => exact hk hkk
        | zihevla =>
          rw [hkk] at hkind
          obtain ⟨v, k, -, hu, -⟩ := zihevla_unit hkind hexp h.ends h.noY hlen hkk hs
          obtain ⟨d, hd, hdv⟩ := unit_vowel hu
          rw [hc] at hd
          simp at hd
          subst hd
          exact vowel_not_consonant hdv hcc
        | exp => rw [hkk] at hkind; rw [hkind.option] at hexp; cases hexp
      rw [hone]
      constructor
      · intro hm
        simp at hm
        exact key 'r' hm.symm (by decide)
      · intro hm
        simp at hm
        exact key 'n' hm.symm (by decide)
    obtain ⟨zs, hz⟩ := slotted_part h hexp hlen hg hrn hs
    have hf : p.pieces.filter (fun x => ¬ Hyphen x) = p.pieces := by
      rw [List.filter_eq_self]
      intro x hx
      rw [← hz.rafsi] at hx
      obtain ⟨z, hz', rfl⟩ := List.mem_map.1 hx
      simpa using unit_not_hyphen (hz.unit z hz')
    have hg0 : glueCount p.pieces = 0 := glue_zero fun x hx => ⟨fun e => hrn.1 (e ▸ hx), fun e => hrn.2 (e ▸ hx)⟩
    rw [hf, hg0]
    exact ⟨zs, _, hz, thin_refl _⟩

/-- Slots for the parts behind the first y. -/
theorem thin_parts {s : Settings} (hexp : s.expRafsi = false) : ∀ {v : List YPart} {e : List Str}, v ≠ [] →
    (∀ u p t, v = u ++ p :: t → (∃ nl cl, PartOk s false false t.isEmpty nl cl p) ∧ p.core.length + 2 < 10 ^ 90 ∧ (p.lead = true → ¬ Onglide p.core)) →
    PartsShown s false v e →
    ∃ zs txt, Slotted s true e zs ((v.map YPart.pieces).flatten.filter (fun x => ¬ Hyphen x)) txt ∧
      Thin (glueCount (v.map YPart.pieces).flatten) txt (joinParts v)
  | [], _, hne, _, _ => absurd rfl hne
  | [p], _, _, hv, .cons (e := e) h1 .nil => by
    obtain ⟨⟨nl, cl, hp⟩, hl, hg⟩ := hv [] p [] rfl
    obtain ⟨zs, txt, hz, ht⟩ := thin_part hp hexp hl hg h1
    exact ⟨zs, txt, by simpa [joinParts] using hz, by simpa [joinParts] using ht⟩
  | p :: q :: v, _, _, hv, .cons (e := e) h1 h2 => by
    obtain ⟨⟨nl, cl, hp⟩, hl, hg⟩ := hv [] p (q :: v) rfl
    obtain ⟨zs, txt, hz, ht⟩ := thin_part hp hexp hl hg h1
    obtain ⟨zs', txt', hz', ht'⟩ := thin_parts hexp (v := q :: v) (by simp) (fun u r t e => hv (p :: u) r t (by rw [e]; rfl)) h2
    refine ⟨zs ++ zs', txt ++ txt', ?_, ?_⟩
    · have := hz.append hz'
      rw [List.map_cons, List.flatten_cons, List.filter_append]
      exact this
    · have := ht.append ht'
      rw [List.map_cons, List.flatten_cons, glue_append, joinParts]
      simpa using this

/-- Slots for the first part, if it consists of several rafsi. -/
theorem first_many {s : Settings} {cm f nl : Bool} {cl : Prop} {p : YPart} {e rest : List Str} {x g : Str} (h : PartOk s cm true false nl cl p)
    (hs : PartShown s p f false e) (hm : p.pieces = x :: g :: rest) :
    ∃ v e' z1 zs xs txt hy, e = v :: e' ∧ ShownRafsi x v ∧ Rafsi s.allowMz x ∧ Diph x ∧ (kindOf x = .vv ∨ kindOf x = .ccv ∨ kindOf x = .cvc) ∧
      Slotted s false e' (z1 :: zs) xs txt ∧ BareSlots s.allowMz (z1 :: zs) ∧ p.pieces.filter (fun x => ¬ Hyphen x) = x :: xs ∧
      Thin (glueCount rest) (x ++ hy ++ txt) (p.text ++ s%"y") ∧ Joint s.allowMz ⟨x, kindOf x, x⟩ z1 ∧
      ((hy = [] ∧ ¬ Hyphen g) ∨
        (VowelRafsi x ∧ s.yHyphens ≠ .forceY ∧ Hyphen g ∧ hy = if z1.text.head? = some 'r' then s%"n" else s%"r")) := by
  have hk : p.kind = .rafsi := by
    by_cases hk : p.kind = .rafsi
    · exact hk
    · rw [part_single h hk] at hm
      simp at hm
  have hkind := h.kind
  rw [hk] at hkind
  have hlead : p.lead = false := by
    cases hl : p.lead with
    | false => rfl
    | true => have := (h.lead hl).1; cases this
  have htx : p.text ++ s%"y" = x ++ (g ++ rest.flatten) ++ suffix false p.trail := by
    have hc := hkind.core
    rw [hm] at hc
    unfold YPart.text suffix
    rw [hlead, ← hc]
    cases p.trail <;> simp
  unfold PartShown at hs
  rw [hk] at hs
  have hR := part_pieces_kind hkind h.noY
  have hlk := hkind.reading.links
  have hla : ∀ y, p.pieces.getLast? = some y → Trailing false false y (kindOf y) (suffix false p.trail) := by
    intro x hx
    obtain ⟨hqr, hql⟩ := last_piece hkind hx
    exact trailing_rafsi hqr (fun ht => hql ▸ (h.trail ht).2) (fun h1 h2 => hql ▸ hkind.ends h1 h2)
  have hL := hkind.reading.last
  obtain ⟨x0, hx0, hxr⟩ := hkind.reading.first
  rw [hm] at hx0 hs hR hlk hla hL
  cases hx0
  have hx : Rafsi s.allowMz x ∧ Diph x := by
    rcases hR x (by simp) with h | h
    · exact h
    · exact absurd (glue_hyphen h) (rafsi_not_hyphen hxr)
  rw [hm, htx]
  simp only [filter_rafsi hxr] at hs ⊢
  obtain ⟨v, e', rfl, hsv, hse⟩ : ∃ v e', e = v :: e' ∧ ShownRafsi x v ∧ All2 ShownRafsi ((g :: rest).filter (fun x => ¬ Hyphen x)) e' := by
    generalize (g :: rest).filter (fun x => ¬ Hyphen x) = fl at hs
    cases hs with
    | cons h1 h2 => exact ⟨_, _, rfl, h1, h2⟩
  have hlink := hlk [] x g rest rfl
  have finish : ∀ {xs : List Str} {zs : List Slot} {x' : Str} {t : Str}, Slotted s false e' zs (x' :: xs) t → BareSlots s.allowMz zs →
      ∃ z1 zs', zs = z1 :: zs' ∧ z1.rafsi = x' ∧ Rafsi s.allowMz z1.rafsi ∧ ∃ h, z1.text = z1.rafsi ++ h := by
    intro xs zs x' t hz hB
    obtain ⟨z, zs, rfl⟩ := List.exists_cons_of_ne_nil hz.ne
    have hzr : z.rafsi = x' := by have := hz.rafsi; simp at this; exact this.1
    have hz1 := (hB.1 z (by simp)).1
    obtain ⟨h, hzt, -⟩ := hz.written [] z zs rfl
    rw [leading_rafsi hz1, List.nil_append] at hzt
    exact ⟨z, zs, rfl, hzr, hz1, h, hzt⟩
  rcases hR g (by simp) with hg | hg
  · have hnv : ¬ Hyphen g := rafsi_not_hyphen hg.1
    have hfi : ∃ q, (g :: rest).head? = some q ∧ Rafsi s.allowMz q := ⟨g, rfl, hg.1⟩
    have hla' : ∃ q, (g :: rest).getLast? = some q ∧ Rafsi s.allowMz q := by simpa using hL
    obtain ⟨zs, hz, hB⟩ := slotted_bare (s := s) (last := false) (trail := p.trail) _ (Nat.le_refl _) hfi hla'
      (fun y hy => hR y (List.mem_cons_of_mem _ hy)) (fun u a b t e => hlk (x :: u) a b t (by rw [e]; rfl)) hse
      (fun y hy => hla y (by rw [List.getLast?_cons_cons]; exact hy))
    have hth := (thin_pieces (mz := s.allowMz) (xs := g :: rest) (fun y hy => (hR y (List.mem_cons_of_mem _ hy)).imp And.left id) hfi hla')
    rw [filter_rafsi hg.1] at hz hth ⊢
    obtain ⟨z1, zs, rfl, rfl, hr1, hzt⟩ := finish hz hB
    have hgc : glueCount (z1.rafsi :: rest) = glueCount rest := by
      have : ¬ (z1.rafsi = s%"r" ∨ z1.rafsi = s%"n") := by
        rintro (e | e) <;> rw [e] at hr1 <;> have := rafsi_length hr1 <;> simp at this
      unfold glueCount
      rw [List.countP_cons_of_neg (by simpa using this)]
    rw [hgc] at hth
    have hkk : (kindOf x = .vv ∨ kindOf x = .ccv ∨ kindOf x = .cvc) ∧ Joint s.allowMz ⟨x, kindOf x, x⟩ z1 := by
      have hyq := rafsi_not_hyphen hr1
      have hxq := rafsi_not_hyphen hx.1
      generalize e1 : x = a at hlink
      generalize e2 : z1.rafsi = b at hlink
      cases hlink with
      | y => rw [e2] at hyq; exact absurd (by decide) hyq
      | apostropheY => rw [e2] at hyq; exact absurd (by decide) hyq
      | rOrN _ _ _ h => rw [e2] at hyq; exact absurd (glue_hyphen h) hyq
      | afterY h => subst e1; simp at h; rcases h with rfl | rfl <;> exact absurd (by decide) hxq
      | afterR => subst e1; exact absurd (by decide) hxq
      | afterN => subst e1; exact absurd (by decide) hxq
      | rafsi _ _ hsh hpair htri =>
        subst e1 e2
        exact ⟨(kind_short hx.1).1 hsh, joint_bare hr1 hzt hpair htri⟩
    refine ⟨v, e', z1, zs, _, _, [], rfl, hsv, hx.1, hx.2, hkk.1, hz, hB, rfl, ?_, hkk.2, .inl ⟨rfl, hnv⟩⟩
    have := ((thin_refl x).append hth).append (thin_refl (suffix false p.trail))
    simpa using this
  · cases hrest : rest with
    | nil =>
      subst hrest
      obtain ⟨q, hq, hqr⟩ := hL
      cases hq
      exact absurd (glue_hyphen hg) (rafsi_not_hyphen hqr)
    | cons x'' rest =>
      subst hrest
      have hvo : VowelRafsi x ∧ s.yHyphens ≠ .forceY := by
        have hgg := glue_hyphen hg
        generalize e1 : x = a at hlink
        generalize e2 : g = q at hlink
        cases hlink with
        | rOrN h1 _ h => exact ⟨h, h1⟩
        | rafsi _ hq => subst e2; exact absurd hgg (rafsi_not_hyphen hq)
        | y => subst e2; simp at hg
        | apostropheY => subst e2; simp at hg
        | afterY _ hq => subst e2; exact absurd hgg (rafsi_not_hyphen hq)
        | afterR hq => subst e2; exact absurd hgg (rafsi_not_hyphen hq)
        | afterN hq => subst e2; exact absurd hgg (rafsi_not_hyphen hq)
      have hx'' : Rafsi s.allowMz x'' ∧ g = if x''.head? = some 'r' then s%"n" else s%"r" := by
        have hk2 := hlk [x] g x'' rest rfl
        have hgg := glue_hyphen hg
        generalize e1 : g = a at hk2
        cases hk2 with
        | rafsi hp => subst e1; exact absurd hgg (rafsi_not_hyphen hp)
        | y hp => subst e1; exact absurd hgg (rafsi_not_hyphen hp)
        | apostropheY _ hp => subst e1; exact absurd hgg (rafsi_not_hyphen hp)
        | rOrN _ hp => subst e1; exact absurd hgg (rafsi_not_hyphen hp)
        | afterY h hq => subst e1; simp at h hg; rcases h with rfl | rfl <;> simp at hg
        | afterR hq h => exact ⟨hq, by rw [if_neg h]⟩
        | afterN hq h => exact ⟨hq, by rw [if_pos h]⟩
      have hfi : ∃ q, (x'' :: rest).head? = some q ∧ Rafsi s.allowMz q := ⟨x'', rfl, hx''.1⟩
      have hla' : ∃ q, (x'' :: rest).getLast? = some q ∧ Rafsi s.allowMz q := by simpa using hL
      rw [filter_glue hg] at hse ⊢
      obtain ⟨zs, hz, hB⟩ := slotted_bare (s := s) (last := false) (trail := p.trail) _ (Nat.le_refl _) hfi hla'
        (fun y hy => hR y (List.mem_cons_of_mem _ (List.mem_cons_of_mem _ hy))) (fun u a b t e => hlk (x :: g :: u) a b t (by rw [e]; rfl)) hse
        (fun y hy => hla y (by rw [List.getLast?_cons_cons, List.getLast?_cons_cons]; exact hy))
      have hth := (thin_pieces (mz := s.allowMz) (xs := x'' :: rest)
        (fun y hy => (hR y (List.mem_cons_of_mem _ (List.mem_cons_of_mem _ hy))).imp And.left id) hfi hla')
      rw [filter_rafsi hx''.1] at hz hth ⊢
      obtain ⟨z1, zs, rfl, rfl, hr1, hzt⟩ := finish hz hB
      obtain ⟨hpair, htri⟩ := vowel_joint s.allowMz hvo.1 z1.rafsi
      refine ⟨v, e', z1, zs, _, _, g, rfl, hsv, hx.1, hx.2, .inl ((kind_vowelRafsi hx.1).1 hvo.1), hz, hB, rfl, ?_, joint_bare hr1 hzt hpair htri, .inr ⟨hvo.1, hvo.2, glue_hyphen hg, ?_⟩⟩
      · have := ((thin_refl (x ++ g)).append hth).append (thin_refl (suffix false p.trail))
        simpa using this
      · obtain ⟨h, hzt⟩ := hzt
        obtain ⟨a, t, he, -⟩ := rafsi_first hr1
        rw [hx''.2, hzt, he]
        rfl

end Jvotci
