import Verif.Lemmas.ExtStep

/-!
# Helper lemmas: one pass through the loop and one part of the specification
-/

namespace Jvotci

open Spec

theorem lead_vowel {x : Str} (h : LeadOk x) : VowelInitial x := by
  obtain ⟨y, t, syls, hr, -⟩ := h
  cases y with
  | nil => exact absurd rfl hr.some
  | cons a y =>
    have := hr.eq
    simp at this
    rw [this]
    exact hr.all a (by simp)

/-- The letters of a core. -/
theorem kind_letters {s : Settings} {cm first last nextLead : Bool} {cl : Prop} {p : YPart} (h : PartOk s cm first last nextLead cl p) :
    ∀ c ∈ p.core, Vowel c ∨ Consonant c ∨ c = '\'' := by
  have hk := h.kind
  have hy := h.noY
  obtain ⟨lead, core, trail, kind, pieces⟩ := p
  cases kind with
  | cvc =>
    have hk : pattern core = s%"CVC" ∧ pieces = [core] := hk
    obtain ⟨a, b, c, rfl, h1, h2, h3⟩ := tarmi_cvc.1 (pattern_cvc.1 hk.1)
    intro d hd
    simp at hd
    rcases hd with rfl | rfl | rfl
    · exact .inr (.inl ((isConsonant_iff _).1 h1))
    · exact .inl ((isVowel_iff _).1 h2)
    · exact .inr (.inl ((isConsonant_iff _).1 h3))
  | rafsi =>
    have hk : RafsiPart s cm first last nextLead cl _ := hk
    have := reading_piece_letters hk.reading (by rw [hk.core]; exact hy)
    rw [hk.core] at this
    exact this
  | zihevla =>
    have hk : ZihevlaPart s last nextLead cl _ := hk
    intro c hc
    refine hk.sounds.letters c ?_
    unfold YPart.whole
    split <;> simp [show c ∈ core from hc]
  | exp =>
    have hk : ExpPart s last nextLead cl _ := hk
    exact hk.sounds.letters

theorem part_ok {ctx : ACtx} {i : Nat} {part0 : Str} {st st' : AState} {last nextLead : Bool}
    (h : analysePart (program .linked) ctx i part0 st = .ok st') (ha : Around ctx i last nextLead)
    (hv : ¬ i + 1 < ctx.yParts.length → ∃ c, part0.getLast? = some c ∧ if ctx.isCmevlatai then Consonant c else Vowel c) (hy : 'y' ∉ part0) (hlen : part0.length < 10 ^ 94)
    (h0 : i = 0 → ctx.yParts[0]? = some part0 ∧ 2 ≤ ctx.yParts.length ∧ (VowelInitial part0 ∨ ConsonantInitial part0) ∧ st.nextHyphen = []) :
    ∃ p : YPart, p.text = part0 ∧
      PartOk ctx.s ctx.isCmevlatai (decide (i = 0)) last nextLead (st.hasCluster = true ∨ (st.consonantBeforeBreak = true ∧ Starts ctx.s.glides p.core)) p ∧
      Steps ctx.s i st p st' := by
  obtain ⟨part, lead, hs, h⟩ := analysePart_ok h
  obtain ⟨e0, hpne, hl1, hl2⟩ := strip_iff.1 hs
  have hlead0 : i = 0 → lead = false := by
    intro hi
    cases lead with
    | false => rfl
    | true =>
      obtain ⟨-, -, h, -⟩ := h0 hi
      rw [e0] at h
      rcases h with h | h
      · exact absurd h apos_not_vowel
      · exact absurd h apos_not_consonant
  have hh : i = 0 → st.nextHyphen = [] ∧ lead = false := fun hi => ⟨(h0 hi).2.2.2, hlead0 hi⟩
  have hpl : part.length < 10 ^ 94 := by
    rw [e0, List.length_append] at hlen
    omega
  have hyp : 'y' ∉ part := by
    intro h
    apply hy
    rw [e0]
    exact List.mem_append_right _ h
  have hvp : ¬ i + 1 < ctx.yParts.length → ∃ c, part.getLast? = some c ∧ if ctx.isCmevlatai then Consonant c else Vowel c := by
    intro hL
    obtain ⟨c, hc, hcv⟩ := hv hL
    exact ⟨c, last_of_append e0 hpne hc, hcv⟩
  have first0 : i = 0 → VowelInitial part ∨ ConsonantInitial part := by
    intro hi
    have := (h0 hi).2.2.1
    rw [e0, hlead0 hi] at this
    exact this
  -- y without an apostrophe
  have start : ∀ (core : Str) (trail : Bool), part = core ++ (if trail then s%"'" else []) → core ≠ [] → (∀ c ∈ core, Vowel c ∨ Consonant c ∨ c = '\'') → lead = false →
      if decide (i = 0) = true then VowelInitial core ∨ ConsonantInitial core else ConsonantInitial core ∨ Onglide core := by
    intro core trail e hne hx hl
    have it := initial_trail (trail := trail) hne
    rw [← e] at it
    split
    · rename_i hi
      rw [← it.1, ← it.2]
      exact first0 (by simpa using hi)
    · rename_i hi
      obtain ⟨h1, h2⟩ := hl2 hl
      rw [← it.1]
      cases core with
      | nil => exact absurd rfl hne
      | cons a c =>
        rcases hx a (by simp) with h | h | h
        · right
          have := h2 (by simp at hi; omega) (it.2.2 h)
          rw [e, onglide_trail] at this
          exact this
        · exact .inl (it.1.2 h)
        · rw [e, h] at h1
          simp at h1
  rcases h with ⟨hcvc, rfl⟩ | ⟨hcvc, c0, f, found, did, hc0, hf, hfd, h⟩
  · have hci : ConsonantInitial part := by
      obtain ⟨a, b, c, rfl, h1, -⟩ := tarmi_cvc.1 hcvc
      exact (isConsonant_iff a).1 h1
    have hlf : lead = false := by
      cases lead with
      | false => rfl
      | true =>
        have := lead_vowel (hl1 rfl)
        cases part with
        | nil => cases hci
        | cons a t => exact absurd hci (vowel_not_consonant this)
    subst hlf
    refine ⟨⟨false, part, false, .cvc, [part]⟩, ?_, ⟨by simp, ?_, hyp, ?_, by simp, ?_⟩, steps_cvc hh⟩
    · rw [e0]; simp [YPart.text]
    · intro _
      split
      · exact .inr hci
      · exact .inl hci
    · obtain ⟨a, b, c, rfl, -, -, h3⟩ := tarmi_cvc.1 hcvc
      simp
      rintro rfl
      revert h3; decide
    · exact ⟨pattern_cvc.2 hcvc, rfl⟩
  · dsimp only at hf hfd h
    change partForm ctx i (clusterAt ctx st c0 part) part = _ at hf
    obtain ⟨core, l, trail, rfl, hE, hTr, rfl⟩ := form_only ha hvp hf
    have hcne : core ≠ [] := by rintro rfl; have := hE.eq; cases this
    have hyc : 'y' ∉ core := fun h => hyp (List.mem_append_left _ h)
    have hcl : core.length < 10 ^ 94 := by
      rw [List.length_append] at hpl
      omega
    have hclus := clusterAt_iff (ctx := ctx) (st := st) hcne hc0
    have htext : ∀ k ps, YPart.text ⟨lead, core, trail, k, ps⟩ = part0 := by
      intro k ps
      rw [e0]
      simp [YPart.text]
    have hap : core.getLast? ≠ some '\'' := by
      rw [hE.eq]
      intro h
      exact hE.apos (by simpa using h)
    have hT : trail = true → last = false ∧ ∃ c, core.getLast? = some c ∧ Vowel c := fun h => ⟨(hE.trail h).1, l, hE.eq, (hE.trail h).2⟩
    have hL : lead = true → decide (i = 0) = false ∧ LeadOk core := by
      intro h
      refine ⟨?_, (leadOk_trail hcne).1 (hl1 h)⟩
      simp
      intro hi
      rw [hlead0 hi] at h
      cases h
    rcases h with ⟨rfl, hn, ht, rfl⟩ | ⟨rfl, shape, p0, hsh, hu, hp0, rfl⟩
    · have hk := (kaha_iff (lead := lead) ha hE hyc hcl (fun hi => ⟨by
          rw [(h0 hi).1, e0, hlead0 hi]; rfl, (h0 hi).2.1⟩)).1 ⟨hcvc, hfd, hn, ht⟩
      rw [propext hclus] at hk
      refine ⟨⟨lead, core, trail, .rafsi, found⟩, htext _ _, ⟨hL, ?_, hyc, hap, hT, hk⟩, steps_rafsi hh hcne hc0 (reading_known hk.reading (by
          rw [hk.core]; exact hyc))⟩
      refine start core trail rfl hcne ?_
      have := reading_piece_letters hk.reading (by rw [hk.core]; exact hyc)
      rw [hk.core] at this
      exact this
    · cases shape with
      | zihevla =>
        obtain ⟨-, hk⟩ := (zih_iff (lead := lead) hE hyc hcl).1 ⟨hcvc, hfd, hsh, hu rfl⟩
        rw [propext hclus] at hk
        refine ⟨⟨lead, core, trail, .zihevla, [core]⟩, htext _ _, ⟨hL, ?_, hyc, hap, hT, hk⟩, ?_⟩
        · refine start core trail rfl hcne ?_
          intro c hc
          refine hk.sounds.letters c ?_
          unfold YPart.whole
          split <;> simp [hc]
        · exact steps_zihevla hh hcne hc0
      | rafsi =>
        obtain ⟨rfl, hk⟩ := (exp_iff (lead := lead) hE hyc hcl).1 ⟨hcvc, hfd, hsh⟩
        have hpart : (formOf ctx (clusterAt ctx st c0 (core ++ (if trail then s%"'" else []))) core l trail last nextLead).part = core := by
          have : ¬ (trail = false ∧ last = false) := fun h' => hk.free (.inl h')
          unfold formOf
          cases trail <;> cases last <;> simp at this ⊢
        rw [hpart] at hp0
        rw [propext hclus] at hk
        refine ⟨⟨lead, core, trail, .exp, [core]⟩, htext _ _, ⟨hL, start core trail rfl hcne hk.sounds.letters, hyc, hap, hT, hk⟩, ?_⟩
        have := steps_exp (lead := lead) hh hcne hc0 hp0 hk.vowel hk.consonants hk.unreadable
        rw [hpart]
        exact this

theorem part_of {ctx : ACtx} {i : Nat} {p : YPart} {st : AState} {last nextLead : Bool}
    (h : PartOk ctx.s ctx.isCmevlatai (decide (i = 0)) last nextLead (st.hasCluster = true ∨ (st.consonantBeforeBreak = true ∧ Starts ctx.s.glides p.core)) p)
    (ha : Around ctx i last nextLead)
    (hv : ¬ i + 1 < ctx.yParts.length → ∃ c, p.text.getLast? = some c ∧ if ctx.isCmevlatai then Consonant c else Vowel c) (hlen : p.text.length < 10 ^ 94)
    (h0 : i = 0 → ctx.yParts[0]? = some p.text ∧ 2 ≤ ctx.yParts.length ∧ st.nextHyphen = []) :
    ∃ st', analysePart (program .linked) ctx i p.text st = .ok st' ∧ Steps ctx.s i st p st' := by
  obtain ⟨lead, core, trail, kind, pieces⟩ := p
  have hlead : lead = true → decide (i = 0) = false ∧ LeadOk core := h.lead
  have hstart : lead = false → if decide (i = 0) = true then VowelInitial core ∨ ConsonantInitial core else ConsonantInitial core ∨ Onglide core := h.start
  have hends : core.getLast? ≠ some '\'' := h.ends
  have htrail : trail = true → last = false ∧ ∃ c, core.getLast? = some c ∧ Vowel c := h.trail
  have hkind := h.kind
  have htext : YPart.text ⟨lead, core, trail, kind, pieces⟩ = (if lead then s%"'" else []) ++ (core ++ (if trail then s%"'" else [])) := by
    simp [YPart.text]
  rw [htext] at hv hlen h0 ⊢
  have hcne : core ≠ [] := by
    rintro rfl
    cases lead with
    | true => exact lead_vowel (hlead rfl).2
    | false =>
      have := hstart rfl
      split at this
      · rcases this with h | h <;> exact h
      · rcases this with h | h <;> exact h
  have hpne : core ++ (if trail then s%"'" else []) ≠ [] := by simp [hcne]
  have hyc : 'y' ∉ core := h.noY
  have hlead0 : i = 0 → lead = false := by
    intro hi
    cases lead with
    | false => rfl
    | true =>
      have := (hlead rfl).1
      simp [hi] at this
  have hh : i = 0 → st.nextHyphen = [] ∧ lead = false := fun hi => ⟨(h0 hi).2.2, hlead0 hi⟩
  have hcl : core.length < 10 ^ 94 := by
    rw [List.length_append, List.length_append] at hlen
    omega
  obtain ⟨l, hl⟩ : ∃ l, core.getLast? = some l := ⟨_, List.getLast?_eq_some_getLast hcne⟩
  have hE : Ending core l trail last := by
    refine ⟨hl, by rintro rfl; exact hends hl, fun ht => ?_, fun hL => ?_⟩
    · obtain ⟨h1, c, hc, hcv⟩ := htrail ht
      rw [hl] at hc
      cases hc
      exact ⟨h1, hcv⟩
    · obtain ⟨hi, hcm⟩ := ha.last.1 hL
      obtain ⟨c, hc, hcv⟩ := hv hi
      rw [hcm] at hcv
      cases trail with
      | true =>
        have := (htrail rfl).1
        rw [hL] at this
        cases this
      | false =>
        have := last_of_append (b := core) (a := if lead then s%"'" else []) (by simp) hcne hc
        rw [hl] at this
        cases this
        exact hcv
  have hTr : trail = true → i + 1 < ctx.yParts.length := by
    rintro rfl
    apply Classical.byContradiction
    intro hi
    obtain ⟨c, hc, hcv⟩ := hv hi
    simp at hc
    subst hc
    split at hcv
    · exact apos_not_consonant hcv
    · exact apos_not_vowel hcv
  have it := initial_trail (trail := trail) hcne
  have hs : stripLeadingH i ((if lead then s%"'" else []) ++ (core ++ (if trail then s%"'" else []))) = .ok (core ++ (if trail then s%"'" else []), lead) := by
    rw [strip_iff]
    refine ⟨rfl, hpne, fun h => (leadOk_trail hcne).2 (hlead h).2, fun h => ?_⟩
    have hst := hstart h
    rw [onglide_trail, it.2]
    constructor
    · cases core with
      | nil => exact absurd rfl hcne
      | cons a c =>
        simp
        rintro rfl
        split at hst
        · rcases hst with h | h
          · exact apos_not_vowel h
          · exact apos_not_consonant h
        · rcases hst with h | h
          · exact apos_not_consonant h
          · cases c with
            | nil => cases h
            | cons b c => rcases h.1 with h | h <;> cases h
    · intro hi hvi
      rw [if_neg (by simp; omega)] at hst
      rcases hst with h | h
      · cases core with
        | nil => cases h
        | cons a c => exact absurd h (vowel_not_consonant hvi)
      · exact h
  obtain ⟨c0, hc0⟩ : ∃ c0, (core ++ (if trail then s%"'" else []))[0]? = some c0 := by
    cases core with
    | nil => exact absurd rfl hcne
    | cons a c => exact ⟨a, rfl⟩
  have hclus := clusterAt_iff (ctx := ctx) (st := st) hcne hc0
  dsimp only at hkind
  rw [← propext hclus] at hkind
  have hform := form_of (hc := clusterAt ctx st c0 (core ++ (if trail then s%"'" else []))) ha hE hTr
  cases kind with
  | cvc =>
    have hkind : pattern core = s%"CVC" ∧ pieces = [core] := hkind
    obtain ⟨hcvc, rfl⟩ := hkind
    have htr : trail = false := by
      cases htr : trail with
      | false => rfl
      | true =>
        obtain ⟨a, b, c, rfl, -, -, h3⟩ := tarmi_cvc.1 (pattern_cvc.1 hcvc)
        simp at hl
        subst hl
        exact absurd ((isConsonant_iff _).1 h3) (vowel_not_consonant (hE.trail htr).2)
    subst htr
    refine ⟨_, analysePart_of ⟨_, _, hs, .inl ⟨?_, rfl⟩⟩, ?_⟩
    · simpa using pattern_cvc.1 hcvc
    · have := steps_cvc (s := ctx.s) (part := core) hh
      simpa using this
  | rafsi =>
    have hk : RafsiPart ctx.s ctx.isCmevlatai (decide (i = 0)) last nextLead _ ⟨lead, core, trail, .rafsi, pieces⟩ := hkind
    obtain ⟨h1, h2, h3, h4⟩ := (kaha_iff (n := st.numConsonants) (lead := lead) ha hE hyc hcl (fun hi => ⟨by
          rw [(h0 hi).1, hlead0 hi]; rfl, (h0 hi).2.1⟩)).2 hk
    exact ⟨_, analysePart_of ⟨_, _, hs, .inr ⟨h1, c0, _, _, _, hc0, hform, h2, .inl ⟨rfl, h3, h4, rfl⟩⟩⟩,
      steps_rafsi hh hcne hc0 (reading_known hk.reading (by rw [hk.core]; exact hyc))⟩
  | zihevla =>
    have hk : ZihevlaPart ctx.s last nextLead _ ⟨lead, core, trail, .zihevla, pieces⟩ := hkind
    have hp : pieces = [core] := hk.pieces
    subst hp
    obtain ⟨h1, h2, h3, h4⟩ := (zih_iff (lead := lead) hE hyc hcl).2 ⟨rfl, hk⟩
    obtain ⟨p0, hp0⟩ : ∃ p0, (formOf ctx (clusterAt ctx st c0 (core ++ (if trail then s%"'" else []))) core l trail last nextLead).part[0]? = some p0 := by
      unfold formOf
      cases core with
      | nil => exact absurd rfl hcne
      | cons a c => exact ⟨a, rfl⟩
    exact ⟨_, analysePart_of ⟨_, _, hs, .inr ⟨h1, c0, _, _, _, hc0, hform, h2, .inr ⟨rfl, .zihevla, p0, h3, fun _ => h4, hp0, rfl⟩⟩⟩,
      steps_zihevla hh hcne hc0⟩
  | exp =>
    have hk : ExpPart ctx.s last nextLead _ ⟨lead, core, trail, .exp, pieces⟩ := hkind
    have hp : pieces = [core] := hk.pieces
    subst hp
    obtain ⟨h1, h2, h3⟩ := (exp_iff (lead := lead) hE hyc hcl).2 ⟨rfl, hk⟩
    have hpart : (formOf ctx (clusterAt ctx st c0 (core ++ (if trail then s%"'" else []))) core l trail last nextLead).part = core := by
      have : ¬ (trail = false ∧ last = false) := fun h' => hk.free (.inl h')
      unfold formOf
      cases trail <;> cases last <;> simp at this ⊢
    obtain ⟨p0, hp0⟩ : ∃ p0, core[0]? = some p0 := by
      cases core with
      | nil => exact absurd rfl hcne
      | cons a c => exact ⟨a, rfl⟩
    refine ⟨_, analysePart_of ⟨_, _, hs, .inr ⟨h1, c0, _, _, _, hc0, hform, h2, .inr ⟨rfl, .rafsi, p0, h3, (fun h => by cases h), by rw [hpart]; exact hp0, rfl⟩⟩⟩, ?_⟩
    have := steps_exp (lead := lead) hh hcne hc0 hp0 hk.vowel hk.consonants hk.unreadable
    rw [hpart]
    exact this

end Jvotci
