import Verif.Lemmas.SegExt

/-!
# Helper lemmas: from rafsi and what stands between them to the parts of a word
-/

namespace Jvotci

open Spec

/-- `l` are the rafsi of a made word, each with what stands between it and the next; `ps` are the parts between its y. -/
inductive Glued (s : Settings) : Bool → List (Str × Str) → List YPart → Prop
  | last {x} : Rafsi s.allowMz x → Diph x → (∃ c, x.getLast? = some c ∧ Vowel c) → Glued s false [(x, [])] [⟨false, x, false, .rafsi, [x]⟩]
  | zlast {x} : ZWhole s x → Glued s false [(x, [])] [⟨leadB x, x, false, .zihevla, [x]⟩]
  | bare {f x x' g' l p ps} : Rafsi s.allowMz x → Diph x → Link s.yHyphens s.allowMz x x' → Glued s false ((x', g') :: l) (p :: ps) →
      p.kind ≠ .zihevla → Glued s f ((x, []) :: (x', g') :: l) (⟨false, x ++ p.core, p.trail, .rafsi, x :: p.pieces⟩ :: ps)
  | rn {f x g x' g' l p ps} : Rafsi s.allowMz x → Diph x → VowelRafsi x → g ∈ [s%"r", s%"n"] → Link s.yHyphens s.allowMz x g →
      Link s.yHyphens s.allowMz g x' → Glued s false ((x', g') :: l) (p :: ps) → p.kind ≠ .zihevla →
      Glued s f ((x, g) :: (x', g') :: l) (⟨false, x ++ g ++ p.core, p.trail, .rafsi, x :: g :: p.pieces⟩ :: ps)
  | sep {f x x' g' l q p ps} : PSeg s f false q → q.core = x → q.pieces = [x] → Glued s false ((x', g') :: l) (p :: ps) →
      Glued s f ((x, (if q.trail then s%"'" else []) ++ s%"y" ++ (if p.lead then s%"'" else [])) :: (x', g') :: l) (q :: p :: ps)

/-- Something put before a part of rafsi. -/
theorem pseg_merge {s : Settings} {f f' last : Bool} {p : YPart} {pre : List Str} {x : Str} (h : PSeg s f last p) (hk : p.kind ≠ .zihevla)
    (hx : pre.head? = some x) (hxr : Rafsi s.allowMz x) (hd : ∀ q ∈ pre, Diph q) (hl : Links s.yHyphens s.allowMz (pre ++ p.pieces))
    (hy : 'y' ∉ pre.flatten) :
    PSeg s f' last ⟨false, pre.flatten ++ p.core, p.trail, .rafsi, pre ++ p.pieces⟩ := by
  obtain ⟨v, rfl⟩ : ∃ v, pre = x :: v := by
    cases pre with
    | nil => cases hx
    | cons a v => cases hx; exact ⟨v, rfl⟩
  have hlen := rafsi_length hxr
  have key : Reading s.yHyphens s.allowMz p.pieces → p.pieces.flatten = p.core → 'y' ∉ p.core →
      Reading s.yHyphens s.allowMz (x :: v ++ p.pieces) ∧ pattern ((x :: v).flatten ++ p.core) ≠ s%"CVC" ∧
        (x :: v ++ p.pieces).getLast? = p.pieces.getLast? ∧ p.core ≠ [] := by
    intro h e hn
    have hne : p.pieces ≠ [] := by
      obtain ⟨q, hq, -⟩ := h.first
      intro e; rw [e] at hq; cases hq
    have hlast : (x :: v ++ p.pieces).getLast? = p.pieces.getLast? := by
      rw [List.getLast?_append]
      cases hg : p.pieces.getLast? with
      | none => simp at hg; exact absurd hg hne
      | some g => rfl
    have hce : p.core ≠ [] := by
      rw [← e]
      obtain ⟨c, hc, -⟩ := reading_lastLetter h
      intro e; rw [e] at hc; cases hc
    refine ⟨⟨⟨x, rfl, hxr⟩, ?_, ?_, hl, ?_⟩, ?_, hlast, hce⟩
    · obtain ⟨q, hq, hqr⟩ := h.last
      exact ⟨q, by rw [hlast, hq], hqr⟩
    · intro q hq
      rcases List.mem_append.1 hq with hq | hq
      · exact hd q hq
      · exact h.diphthongs q hq
    · rintro a b c w - e2
      have : 'y' ∈ (x :: v ++ p.pieces).flatten := by rw [e2]; simp
      rw [List.flatten_append, List.mem_append, e] at this
      exact this.elim hy hn
    · intro ep
      have h1 := congrArg List.length ep
      have h2 : 0 < p.core.length := List.length_pos_iff.2 hce
      simp [pattern] at h1
      omega
  have hyy : 'y' ∉ p.core → 'y' ∉ (x :: v).flatten ++ p.core := by
    intro h
    rw [List.mem_append]
    exact fun h' => h'.elim hy h
  have hny := pseg_noY h
  cases h with
  | @cvc z hr hk' =>
    have hdi : Diph z := by
      obtain ⟨a, b, c, rfl, -, -, hc⟩ := tarmi_cvc.1 (kind_cvc hk')
      exact diph_consonant (.inr ((isConsonant_iff c).1 hc))
    obtain ⟨k1, k2, k3, k4⟩ := key (reading_oneRafsi hr hdi) (by simp) hny
    refine .rafsi k1 (by simp) (hyy hny) k2 (by simp) ?_ (by simp)
    intro _ _
    exact ⟨z, by simpa using k3, .inl hk'⟩
  | rafsi h e hn hp ht h1 h2 =>
    obtain ⟨k1, k2, k3, k4⟩ := key h e hn
    refine .rafsi k1 (by rw [List.flatten_append, e]) (hyy hn) k2 ht ?_ ?_
    · intro a b
      rw [k3]
      exact h1 a b
    · intro a
      rw [getLast?_append_ne _ k4]
      exact h2 a
  | whole => exact absurd rfl hk
  | cut => exact absurd rfl hk

/-- The parts are parts of a made word; the first begins with the first rafsi. -/
theorem glued_parts {s : Settings} {f : Bool} {l : List (Str × Str)} {ps : List YPart} (h : Glued s f l ps) :
    Parts s f ps ∧ ∃ x g t p v, l = (x, g) :: t ∧ ps = p :: v ∧ p.pieces.head? = some x := by
  induction h with
  | @last x h hd hv =>
    refine ⟨.one (.rafsi (reading_oneRafsi h hd) (by simp) (rafsi_noY h) ?_ (by simp) (by simp) (fun _ => hv)), x, [], [], _, [], rfl, rfl, rfl⟩
    intro e
    obtain ⟨a, b, c, rfl, -, -, hc⟩ := tarmi_cvc.1 (pattern_cvc.1 e)
    obtain ⟨d, hd', hdv⟩ := hv
    cases hd'
    exact vowel_not_consonant hdv ((isConsonant_iff _).1 hc)
  | @zlast x h => exact ⟨.one (by simpa using PSeg.whole (f := false) (last := true) h), x, [], [], _, [], rfl, rfl, rfl⟩
  | @bare f x x' g' l p ps hx hd hlk h hk ih =>
    obtain ⟨hP, x2, g2, t2, p2, v2, e1, e2, e3⟩ := ih
    cases e1
    cases e2
    refine ⟨?_, x, [], _, _, ps, rfl, rfl, rfl⟩
    have hl : ∀ {q : YPart}, q.pieces.head? = some x' → Links s.yHyphens s.allowMz q.pieces → Links s.yHyphens s.allowMz ([x] ++ q.pieces) := by
      intro q hq hl
      cases hqp : q.pieces with
      | nil => rw [hqp] at hq; cases hq
      | cons a b =>
        rw [hqp] at hq hl
        cases hq
        exact links_cons.2 ⟨hlk, hl⟩
    have hlp : Links s.yHyphens s.allowMz p.pieces := by
      obtain ⟨f', l', hp⟩ := parts_mem hP (p := p) (by simp)
      cases hp with
      | cvc => exact links_one
      | rafsi hr => exact hr.links
      | whole => exact links_one
      | cut => exact links_one
    have hny : 'y' ∉ [x].flatten := by simpa using rafsi_noY hx
    have hdi : ∀ q ∈ [x], Diph q := by intro q hq; simp at hq; subst hq; exact hd
    cases hP with
    | one hp => exact .one (by simpa using pseg_merge (pre := [x]) hp hk rfl hx hdi (hl e3 hlp) hny)
    | cons hp hP' => exact .cons (by simpa using pseg_merge (pre := [x]) hp hk rfl hx hdi (hl e3 hlp) hny) hP'
  | @rn _ x g x' g' l p ps hx hd hv hg hlk hlk' h hk ih =>
    obtain ⟨hP, x2, g2, t2, p2, v2, e1, e2, e3⟩ := ih
    cases e1
    cases e2
    refine ⟨?_, x, g, _, _, ps, rfl, rfl, rfl⟩
    have hlp : Links s.yHyphens s.allowMz p.pieces := by
      obtain ⟨f', l', hp⟩ := parts_mem hP (p := p) (by simp)
      cases hp with
      | cvc => exact links_one
      | rafsi hr => exact hr.links
      | whole => exact links_one
      | cut => exact links_one
    have hl : Links s.yHyphens s.allowMz ([x, g] ++ p.pieces) := by
      cases hqp : p.pieces with
      | nil => rw [hqp] at e3; cases e3
      | cons a b =>
        rw [hqp] at e3 hlp
        cases e3
        exact links_cons.2 ⟨hlk, links_cons.2 ⟨hlk', hlp⟩⟩
    have hny : 'y' ∉ [x, g].flatten := by
      simp only [List.flatten_cons, List.flatten_nil, List.append_nil, List.mem_append]
      rintro (h | h)
      · exact rafsi_noY hx h
      · simp at hg
        rcases hg with rfl | rfl <;> revert h <;> decide
    have hdi : ∀ q ∈ [x, g], Diph q := by
      intro q hq
      simp at hq
      rcases hq with rfl | rfl
      · exact hd
      · simp at hg
        rcases hg with rfl | rfl <;> exact diph_long (by simp)
    cases hP with
    | one hp => exact .one (by simpa using pseg_merge (pre := [x, g]) hp hk rfl hx hdi hl hny)
    | cons hp hP' => exact .cons (by simpa using pseg_merge (pre := [x, g]) hp hk rfl hx hdi hl hny) hP'
  | @sep f x x' g' l q p ps hq hc hp h ih =>
    obtain ⟨hP, -⟩ := ih
    exact ⟨.cons hq hP, x, _, _, q, p :: ps, rfl, rfl, by rw [hp]; rfl⟩

/-- The letters of the parts are those of the rafsi and what stands between them. -/
theorem glued_spell {s : Settings} {f : Bool} {l : List (Str × Str)} {ps : List YPart} (h : Glued s f l ps) :
    ∀ p v, ps = p :: v → joinParts ps = (if p.lead then s%"'" else []) ++ spell l := by
  induction h with
  | last => rintro p v ⟨⟩; simp [joinParts, YPart.text, spell]
  | zlast => rintro p v ⟨⟩; simp [joinParts, YPart.text, spell]
  | @bare f x x' g' l p ps _ _ _ h hk ih =>
    rintro p2 v ⟨⟩
    have hlead : p.lead = false := by
      obtain ⟨f', l', hp⟩ := parts_mem (glued_parts h).1 (p := p) (by simp)
      cases hl : p.lead with
      | false => rfl
      | true => exact absurd (pseg_lead hp hl).1 hk
    have := ih p ps rfl
    rw [hlead] at this
    rw [spell_cons]
    cases ps with
    | nil =>
      simp [joinParts, YPart.text, hlead] at this ⊢
      exact this
    | cons p3 ps =>
      simp [joinParts, YPart.text, hlead] at this ⊢
      exact this
  | @rn _ x g x' g' l p ps _ _ _ _ _ _ h hk ih =>
    rintro p2 v ⟨⟩
    have hlead : p.lead = false := by
      obtain ⟨f', l', hp⟩ := parts_mem (glued_parts h).1 (p := p) (by simp)
      cases hl : p.lead with
      | false => rfl
      | true => exact absurd (pseg_lead hp hl).1 hk
    have := ih p ps rfl
    rw [hlead] at this
    rw [spell_cons]
    cases ps with
    | nil =>
      simp [joinParts, YPart.text, hlead] at this ⊢
      exact this
    | cons p3 ps =>
      simp [joinParts, YPart.text, hlead] at this ⊢
      exact this
  | @sep f x x' g' l q p ps hq hc hp h ih =>
    rintro p2 v ⟨⟩
    rw [spell_cons, joinParts, ih p ps rfl]
    simp [YPart.text, hc]

theorem flat_append {x g : Str} (l : List (Str × Str)) : flat ((x, g) :: l) = piecesOf (x, g) ++ flat l := rfl

/-- The pieces of the parts are the rafsi and hyphens. -/
theorem glued_flat {s : Settings} {f : Bool} {l : List (Str × Str)} {ps : List YPart} (h : Glued s f l ps) : joinPieces ps = flat l := by
  induction h with
  | last => rfl
  | zlast => rfl
  | @bare f x x' g' l p ps _ _ _ h hk ih =>
    rw [flat_bare, ← ih]
    cases ps with
    | nil => rfl
    | cons p3 ps => simp [joinPieces]
  | @rn _ x g x' g' l p ps _ _ _ hg _ _ h hk ih =>
    rw [flat_hyphen (by simp at hg; rcases hg with rfl | rfl <;> simp), ← ih]
    cases ps with
    | nil => rfl
    | cons p3 ps => simp [joinPieces]
  | @sep f x x' g' l q p ps hq hc hp h ih =>
    rw [flat_hyphen (by simp), ← ih]
    simp [joinPieces, hp]

/-- If the parts consist of CVV and CV'V, so does the word. -/
theorem glued_vv {s : Settings} {f : Bool} {l : List (Str × Str)} {ps : List YPart} (h : Glued s f l ps) :
    (∀ p ∈ ps, ∀ x ∈ p.pieces, VowelRafsi x) → ∀ q ∈ l, VowelRafsi q.1 ∧ q.2 ≠ s%"r" ∧ q.2 ≠ s%"n" := by
  have nv : ∀ {c : Char}, ¬ VowelRafsi [c] := by
    rintro c ⟨x, a, b, -, -, e | e⟩ <;> cases e
  induction h with
  | last => intro h q hq; simp at hq; subst hq; exact ⟨h _ (List.mem_cons_self ..) _ (List.mem_cons_self ..), by simp, by simp⟩
  | zlast => intro h q hq; simp at hq; subst hq; exact ⟨h _ (List.mem_cons_self ..) _ (List.mem_cons_self ..), by simp, by simp⟩
  | @bare f x x' g' l p ps _ _ _ h hk ih =>
    intro h q hq
    rcases List.mem_cons.1 hq with rfl | hq
    · exact ⟨h _ (List.mem_cons_self ..) _ (List.mem_cons_self ..), by simp, by simp⟩
    · refine ih ?_ q hq
      intro p' hp' y hy
      rcases List.mem_cons.1 hp' with rfl | hp'
      · exact h _ (List.mem_cons_self ..) _ (List.mem_cons_of_mem _ hy)
      · exact h _ (List.mem_cons_of_mem _ hp') _ hy
  | @rn _ x g x' g' l p ps _ _ _ hg _ _ h hk ih =>
    intro h
    have := h _ (List.mem_cons_self ..) g (List.mem_cons_of_mem _ (List.mem_cons_self ..))
    simp at hg
    rcases hg with rfl | rfl <;> exact absurd this nv
  | @sep f x x' g' l q p ps hq hc hp h ih =>
    intro h r hr
    rcases List.mem_cons.1 hr with rfl | hr
    · refine ⟨h q (List.mem_cons_self ..) x (by rw [hp]; simp), ?_, ?_⟩ <;>
      · intro e
        have : 'y' ∈ (if q.trail then s%"'" else []) ++ s%"y" ++ (if p.lead then s%"'" else []) := by simp
        rw [show (if q.trail then s%"'" else []) ++ s%"y" ++ (if p.lead then s%"'" else []) = _ from e] at this
        revert this
        decide
    · exact ih (fun p' hp' => h p' (List.mem_cons_of_mem _ hp')) r hr

/-- How a made word may begin. -/
structure Start (s : Settings) (l : List (Str × Str)) : Prop where
  vv : ∀ x x' g' t, l = (x, []) :: (x', g') :: t → VowelRafsi x → t = [] ∧ pattern x' = s%"CCV"
  standard : ∀ x t, l = (x, s%"'y") :: t → VowelRafsi x → s.yHyphens ≠ .standard
  ccv : ∀ x g t, l = (x, g) :: t → pattern x = s%"CCV" → g.head? ≠ some '\''
  enough : (∀ q ∈ l, VowelRafsi q.1 ∧ q.2 ≠ s%"r" ∧ q.2 ≠ s%"n") → s.consonants ≠ .cluster

theorem not_vowelRafsi_ccv {x : Str} (h : pattern x = s%"CCV") : ¬ VowelRafsi x := by
  obtain ⟨a, b, c, rfl, -, hb, -⟩ := tarmi_ccv.1 (pattern_ccv.1 h)
  exact not_vowelRafsi (.inl ((isConsonant_iff b).1 hb))

theorem pseg_first_lead {s : Settings} {last : Bool} {p : YPart} (h : PSeg s true last p) : p.lead = false := by
  cases hl : p.lead with
  | false => rfl
  | true => have := (pseg_lead h hl).2; cases this

theorem glued_firstVV {s : Settings} {l : List (Str × Str)} {ps : List YPart} (h : Glued s true l ps) (hs : Start s l) : FirstVV s ps := by
  have nv : ∀ {c : Char}, ¬ VowelRafsi [c] := by
    rintro c ⟨x, a, b, -, -, e | e⟩ <;> cases e
  generalize hf : true = f at h
  cases h with
  | last => trivial
  | zlast => trivial
  | @bare f x x' g' l p ps hx _ _ h hk =>
    cases ps with
    | nil => trivial
    | cons q ps =>
      intro _ hv _
      exfalso
      obtain ⟨-, e⟩ := hs.vv x x' g' l rfl (hv x (by simp))
      obtain ⟨-, x2, g2, t2, p2, v2, e1, e2, e3⟩ := glued_parts h
      cases e1
      cases e2
      exact not_vowelRafsi_ccv e (hv x' (List.mem_cons_of_mem _ (List.mem_of_head? e3)))
  | @rn _ x g x' g' l p ps _ _ _ hg _ _ h hk =>
    cases ps with
    | nil => trivial
    | cons q ps =>
      intro _ hv _
      have := hv g (by simp)
      simp at hg
      rcases hg with rfl | rfl <;> exact absurd this nv
  | @sep f x x' g' l q p ps hq hc hp h =>
    intro hk hv hst
    have hvx := hv x (by rw [hp]; simp)
    cases ht : q.trail with
    | false =>
      exfalso
      cases hq with
      | cvc => cases hk
      | rafsi hr e _ _ _ h1 _ =>
        obtain ⟨z, hz, hzk⟩ := h1 ht rfl
        simp only at hp
        subst hp
        cases hz
        obtain ⟨z, hz, hzr⟩ := hr.last
        cases hz
        rw [(kind_vowelRafsi hzr).1 hvx] at hzk
        rcases hzk with h | h <;> cases h
      | whole => cases hk
      | cut => cases hk
    | true =>
      cases hl : p.lead with
      | true => rfl
      | false => exact absurd hst (hs.standard x _ (by rw [ht, hl]; rfl) hvx)

theorem glued_begin {s : Settings} {l : List (Str × Str)} {ps : List YPart} (h : Glued s true l ps)
    (hs : ∀ x g t, l = (x, g) :: t → pattern x = s%"CCV" → g.head? ≠ some '\'') {a b c : Char} {v : Str}
    (hi : InitialPair a b) (hc : Vowel c) : joinParts ps ≠ a :: b :: c :: '\'' :: 'y' :: v := by
  intro e
  have hb := (initial_consonants hi).2
  obtain ⟨hP, -⟩ := glued_parts h
  generalize hf : true = f at h
  have one : ∀ {p : YPart} {ps : List YPart}, Parts s true (p :: ps) → joinParts (p :: ps) = a :: b :: c :: '\'' :: 'y' :: v →
      p.trail = true ∧ p.core = [a, b, c] := by
    intro p ps hP e
    cases hP with
    | one hp =>
      exfalso
      have hl := pseg_first_lead hp
      have ht : p.trail = false := by
        cases ht : p.trail with
        | false => rfl
        | true => have := (pseg_trail hp ht).1; cases this
      simp [joinParts, YPart.text, hl, ht] at e
      exact pseg_noY hp (by rw [e]; simp)
    | @cons _ _ q w hp =>
      have hl := pseg_first_lead hp
      have e' : (p.core ++ (if p.trail then s%"'" else [])) ++ 'y' :: joinParts (q :: w) = [a, b, c, '\''] ++ 'y' :: v := by
        rw [joinParts] at e
        simpa [YPart.text, hl] using e
      have na : ∀ {x : Char}, Vowel x ∨ Consonant x → 'y' ≠ x := by rintro x h rfl; revert h; decide
      obtain ⟨e1, -⟩ := cut_at (by
        rw [List.mem_append]
        rintro (hm | hm)
        · exact pseg_noY hp hm
        · split at hm <;> revert hm <;> decide) (by
        simp [na (.inr (initial_consonants hi).1), na (.inr hb), na (.inl hc)]) e'
      cases ht : p.trail with
      | true =>
        rw [ht] at e1
        exact ⟨rfl, List.append_cancel_right (e1 : p.core ++ s%"'" = [a, b, c] ++ s%"'")⟩
      | false =>
        rw [ht] at e1
        simp at e1
        have := pseg_ends hp
        rw [e1] at this
        exact absurd rfl this
  have hpat : pattern [a, b, c] = s%"CCV" := pattern_ccv.2 (tarmi_ccv.2 ⟨a, b, c, rfl, (isConsonant_iff a).2 (initial_consonants hi).1,
    (isConsonant_iff b).2 hb, (isVowel_iff c).2 hc⟩)
  cases h with
  | last => cases hf
  | zlast => cases hf
  | @bare f x x' g' l p ps hx _ _ h hk =>
    subst hf
    obtain ⟨-, e2⟩ := one hP e
    have h1 := rafsi_length hx
    obtain ⟨f', l', hp⟩ := parts_mem (glued_parts h).1 (p := p) (by simp)
    obtain ⟨d, hd, -⟩ := pseg_last hp
    have h2 := congrArg List.length e2
    have h3 : 0 < p.core.length := List.length_pos_iff.2 (by intro e; rw [e] at hd; cases hd)
    simp at h2
    omega
  | @rn _ x g x' g' l p ps hx _ _ hg _ _ h hk =>
    obtain ⟨-, e2⟩ := one hP e
    have h1 := rafsi_length hx
    have h2 := congrArg List.length e2
    simp at hg h2
    have : g.length = 1 := by rcases hg with rfl | rfl <;> rfl
    omega
  | @sep f x x' g' l q p ps hq hcx hp h =>
    subst hf
    obtain ⟨e1, e2⟩ := one hP e
    rw [hcx] at e2
    subst e2
    refine hs _ _ _ rfl hpat ?_
    rw [e1]
    rfl

end Jvotci
