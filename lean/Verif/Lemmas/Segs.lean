import Verif.Lemmas.Units

/-!
# Helper lemmas: the parts of a made word between its y
-/

namespace Jvotci

open Spec

/-- A part of a made word. -/
inductive PSeg (s : Settings) : Bool → Bool → YPart → Prop
  | cvc {f x} : Rafsi s.allowMz x → kindOf x = .cvc → PSeg s f false ⟨false, x, false, .cvc, [x]⟩
  | rafsi {f last t x ps} : Reading s.yHyphens s.allowMz ps → ps.flatten = x → 'y' ∉ x → pattern x ≠ s%"CVC" → (t = true → last = false) →
      (t = false → last = false → ∃ p, ps.getLast? = some p ∧ (kindOf p = .cvc ∨ kindOf p = .short)) →
      (t = true ∨ last = true → ∃ c, x.getLast? = some c ∧ Vowel c) → PSeg s f last ⟨false, x, t, .rafsi, ps⟩
  | whole {f last x} : ZWhole s x → PSeg s f last ⟨!f && leadB x, x, !last, .zihevla, [x]⟩
  | cut {f x} : ZCut s x → PSeg s f false ⟨!f && leadB x, x, false, .zihevla, [x]⟩

/-- The parts of a made word. -/
inductive Parts (s : Settings) : Bool → List YPart → Prop
  | one {f p} : PSeg s f true p → Parts s f [p]
  | cons {f p q v} : PSeg s f false p → Parts s false (q :: v) → Parts s f (p :: q :: v)

/-- The last letter of a reading is a vowel or consonant. -/
theorem reading_lastLetter {y : YHyphens} {mz : Bool} {ps : List Str} (h : Reading y mz ps) :
    ∃ c, ps.flatten.getLast? = some c ∧ (Vowel c ∨ Consonant c) := by
  obtain ⟨p, hp, hr⟩ := h.last
  obtain ⟨u, rfl⟩ : ∃ u, ps = u ++ [p] := by
    have := List.getLast?_eq_some_iff.1 hp
    exact this
  obtain ⟨l, hl, h1, h2⟩ := rk_last (rafsi_rk hr)
  refine ⟨l, by simp [List.getLast?_append, hl], ?_⟩
  have := rafsi_kind hr
  cases hk : kindOf p <;> simp_all

theorem reading_head {y : YHyphens} {mz : Bool} {ps : List Str} (h : Reading y mz ps) : ConsonantInitial ps.flatten := by
  obtain ⟨p, hp, hr⟩ := h.first
  cases ps with
  | nil => cases hp
  | cons q ps =>
    cases hp
    obtain ⟨a, t, rfl, ha⟩ := rafsi_first hr
    exact (isConsonant_iff a).1 ha

theorem initial_append {x u : Str} (h : ConsonantInitial x) : ConsonantInitial (x ++ u) := by
  cases x with
  | nil => cases h
  | cons a x => exact h

theorem rafsi_initial {mz : Bool} {x : Str} (h : Rafsi mz x) : ConsonantInitial x := by
  obtain ⟨a, t, rfl, ha⟩ := rafsi_first h
  exact (isConsonant_iff a).1 ha

theorem rafsi_noY {mz : Bool} {x : Str} (h : Rafsi mz x) : 'y' ∉ x := by
  intro hm
  rcases rafsi_letters h _ hm with h | h | h <;> revert h <;> decide

theorem rafsi_lastLetter {mz : Bool} {x : Str} (h : Rafsi mz x) : ∃ c, x.getLast? = some c ∧ (Vowel c ∨ Consonant c) := by
  obtain ⟨l, hl, h1, h2⟩ := rk_last (rafsi_rk h)
  refine ⟨l, hl, ?_⟩
  have := rafsi_kind h
  cases hk : kindOf x <;> simp_all

/-- There is no y in a part. -/
theorem pseg_noY {s : Settings} {f last : Bool} {p : YPart} (h : PSeg s f last p) : 'y' ∉ p.core := by
  cases h with
  | cvc h => exact rafsi_noY h
  | rafsi _ _ h => exact h
  | whole h => exact sounds_no_y h.form.sounds
  | cut h => exact fun hm => sounds_no_y h.whole.form.sounds (List.mem_append_left _ hm)

theorem pseg_last {s : Settings} {f last : Bool} {p : YPart} (h : PSeg s f last p) :
    ∃ c, p.core.getLast? = some c ∧ (Vowel c ∨ Consonant c) := by
  cases h with
  | cvc h => exact rafsi_lastLetter h
  | rafsi h e => rw [← e]; exact reading_lastLetter h
  | whole h =>
    obtain ⟨c, hc, hv⟩ := h.form.vowel
    exact ⟨c, hc, .inl hv⟩
  | cut h => exact zcut_last h

theorem pseg_ends {s : Settings} {f last : Bool} {p : YPart} (h : PSeg s f last p) : p.core.getLast? ≠ some '\'' := by
  obtain ⟨c, hc, h⟩ := pseg_last h
  rw [hc]
  intro e
  cases e
  revert h
  decide

theorem pseg_trail {s : Settings} {f last : Bool} {p : YPart} (h : PSeg s f last p) (ht : p.trail = true) :
    last = false ∧ ∃ c, p.core.getLast? = some c ∧ Vowel c := by
  cases h with
  | cvc h => cases ht
  | rafsi h e _ _ h1 _ h2 => exact ⟨h1 ht, h2 (.inl ht)⟩
  | whole h => exact ⟨by simpa using ht, h.form.vowel⟩
  | cut h => cases ht

theorem parts_split {s : Settings} : ∀ {u : List YPart} {f : Bool} {p : YPart} {v : List YPart}, Parts s f (u ++ p :: v) →
    PSeg s (f && u.isEmpty) v.isEmpty p
  | [], f, p, v, h => by
    generalize e : [] ++ p :: v = ps at h
    cases h with
    | one h => cases e; simpa using h
    | cons h => cases e; simpa using h
  | a :: u, f, p, v, h => by
    generalize e : a :: u ++ p :: v = ps at h
    cases h with
    | one h => simp at e
    | cons _ h =>
      simp only [List.cons_append, List.cons.injEq] at e
      obtain ⟨-, e⟩ := e
      rw [← e] at h
      have := parts_split h
      simpa using this

theorem parts_mem {s : Settings} {f : Bool} {ps : List YPart} {p : YPart} (h : Parts s f ps) (hp : p ∈ ps) : ∃ f' last, PSeg s f' last p := by
  obtain ⟨u, v, rfl⟩ := List.append_of_mem hp
  exact ⟨_, _, parts_split h⟩

/-! ## A made word is read as it was made -/

theorem cut_at {c : Char} : ∀ {u u' v v' : Str}, c ∉ u → c ∉ u' → u ++ c :: v = u' ++ c :: v' → u = u' ∧ v = v'
  | [], [], _, _, _, _, e => by simpa using e
  | [], a :: u', _, _, _, h, e => by simp at e; exact absurd (by simp [e.1]) h
  | a :: u, [], _, _, h, _, e => by simp at e; exact absurd (by simp [e.1]) h
  | a :: u, b :: u', v, v', h, h', e => by
    simp only [List.cons_append, List.cons.injEq] at e
    obtain ⟨rfl, e⟩ := e
    obtain ⟨rfl, rfl⟩ := cut_at (fun hm => h (List.mem_cons_of_mem _ hm)) (fun hm => h' (List.mem_cons_of_mem _ hm)) e
    exact ⟨rfl, rfl⟩

/-- The first y of a sequence of pieces. -/
theorem split_y {mz : Bool} : ∀ {qs : List Str}, (∀ q ∈ qs, Rafsi mz q ∨ q ∈ [s%"r", s%"n", s%"y", s%"'y"]) → 'y' ∈ qs.flatten →
    ∃ a h b, qs = a ++ h :: b ∧ (h = s%"y" ∨ h = s%"'y") ∧ 'y' ∉ a.flatten
  | [], _, h => by cases h
  | q :: qs, hq, h => by
    by_cases hy : q = s%"y" ∨ q = s%"'y"
    · exact ⟨[], q, qs, rfl, hy, by simp⟩
    · have hn : 'y' ∉ q := by
        rcases hq q (by simp) with hr | hr
        · exact rafsi_noY hr
        · simp at hr
          rcases hr with rfl | rfl | hr | hr
          · decide
          · decide
          · exact absurd (.inl hr) hy
          · exact absurd (.inr hr) hy
      obtain ⟨a, h', b, rfl, h1, h2⟩ := split_y (fun p hp => hq p (List.mem_cons_of_mem _ hp)) (by
        rw [List.flatten_cons, List.mem_append] at h
        exact h.resolve_left hn)
      exact ⟨q :: a, h', b, rfl, h1, by rw [List.flatten_cons, List.mem_append]; exact fun h => h.elim hn h2⟩

/-- A part without y, read as rafsi, is read as it was made, unless a y follows a vowel. -/
theorem pseg_read {s : Settings} {f last : Bool} {p : YPart} {a : List Str} (h : PSeg s f last p) (ha : Reading s.yHyphens s.allowMz a)
    (e : a.flatten = p.core) (hy : p.trail = false → last = false → ∃ c, p.core.getLast? = some c ∧ Consonant c) :
    a = p.pieces := by
  cases h with
  | cvc h hk =>
    refine C37_reading_unique ha (reading_oneRafsi h ?_) (by rw [e]; simp)
    obtain ⟨x, y, z, rfl, -, -, hz⟩ := tarmi_cvc.1 (kind_cvc hk)
    exact diph_consonant (.inr ((isConsonant_iff z).1 hz))
  | rafsi h e' => exact C37_reading_unique ha h (by rw [e, e'])
  | whole h => exact absurd e (h.unreadable a ha)
  | cut h => exact absurd e (h.unreadable (hy rfl rfl) a ha)

theorem joinParts_head {p : YPart} {v : List YPart} (h : p.lead = true) : ∃ t, joinParts (p :: v) = '\'' :: t := by
  cases v with
  | nil => exact ⟨_, by simp [joinParts, YPart.text, h]; rfl⟩
  | cons q v => exact ⟨_, by simp [joinParts, YPart.text, h]; rfl⟩

/-- A sequence of rafsi that spells a made word is the one it was made of. -/
theorem read_parts {s : Settings} : ∀ {ps : List YPart} {f : Bool}, Parts s f ps → (∀ p v, ps = p :: v → p.lead = false) →
    ∀ {qs : List Str}, Links s.yHyphens s.allowMz qs → (∃ p, qs.head? = some p ∧ Rafsi s.allowMz p) →
    (∃ p, qs.getLast? = some p ∧ Rafsi s.allowMz p) → (∀ q ∈ qs, Diph q) →
    (∀ u p v, qs = u ++ p :: s%"y" :: v → ∃ c, p.getLast? = some c ∧ Consonant c) → qs.flatten = joinParts ps → qs = joinPieces ps := by
  intro ps f hP
  induction hP with
  | @one f p hp =>
    intro hl qs hk h1 h2 hd hy e
    have hlead := hl p [] rfl
    have htr : p.trail = false := by
      cases ht : p.trail with
      | false => rfl
      | true => have := (pseg_trail hp ht).1; cases this
    have e' : qs.flatten = p.core := by rw [e]; simp [joinParts, YPart.text, hlead, htr]
    refine pseg_read hp ⟨h1, h2, fun q hq => hd q hq, hk, ?_⟩ e' (fun _ h => by cases h)
    rintro a b c v - rfl
    exact pseg_noY hp (by rw [← e']; simp)
  | @cons f p q v hp hPs ih =>
    intro hl qs hk h1 h2 hd hy e
    have hlead := hl p _ rfl
    have hjoin : joinParts (p :: q :: v) = (p.core ++ (if p.trail then s%"'" else [])) ++ 'y' :: joinParts (q :: v) := by
      simp [joinParts, YPart.text, hlead]
    rw [hjoin] at e
    have hpieces : ∀ r ∈ qs, Rafsi s.allowMz r ∨ r ∈ [s%"r", s%"n", s%"y", s%"'y"] := by
      obtain ⟨r, hr, hrr⟩ := h1
      cases qs with
      | nil => cases hr
      | cons r' qs =>
        cases hr
        intro x hx
        rcases links_pieces (.inl hrr) hk x hx with h | h | rfl
        · exact .inl h
        · exact .inr h
        · exact .inl hrr
    obtain ⟨a, h, b, rfl, hh, hna⟩ := split_y hpieces (by rw [e]; simp)
    -- the pieces on both sides
    have hhy : Hyphen h := by rcases hh with rfl | rfl <;> decide
    have hane : a ≠ [] := by
      rintro rfl
      obtain ⟨r, hr, hrr⟩ := h1
      cases hr
      exact rafsi_not_hyphen hrr hhy
    have hbne : b ≠ [] := by
      rintro rfl
      obtain ⟨r, hr, hrr⟩ := h2
      simp at hr
      subst hr
      exact rafsi_not_hyphen hrr hhy
    obtain ⟨a', z, rfl⟩ : ∃ a' z, a = a' ++ [z] := ⟨_, _, (List.dropLast_concat_getLast hane).symm⟩
    obtain ⟨w, b', rfl⟩ : ∃ w b', b = w :: b' := by
      cases b with
      | nil => exact absurd rfl hbne
      | cons w b' => exact ⟨w, b', rfl⟩
    have hzr : Rafsi s.allowMz z := by
      have hlk := hk a' z h (w :: b') (by simp)
      rcases hh with rfl | rfl
      · cases hlk with
        | rafsi h => exact h
        | y h => exact h
        | rOrN _ h => exact h
        | afterY _ h => exact absurd hhy (rafsi_not_hyphen h)
        | afterR h => exact absurd hhy (rafsi_not_hyphen h)
        | afterN h => exact absurd hhy (rafsi_not_hyphen h)
      · cases hlk with
        | rafsi h => exact h
        | apostropheY _ h => exact h
        | rOrN _ h => exact h
        | afterY _ h => exact absurd hhy (rafsi_not_hyphen h)
        | afterR h => exact absurd hhy (rafsi_not_hyphen h)
        | afterN h => exact absurd hhy (rafsi_not_hyphen h)
    have hwr : Rafsi s.allowMz w := by
      have hlk := hk (a' ++ [z]) h w b' (by simp)
      generalize e2 : h = h0 at hlk
      cases hlk with
      | rafsi _ h => exact h
      | y h => subst e2; exact absurd hhy (rafsi_not_hyphen h)
      | apostropheY _ h => subst e2; exact absurd hhy (rafsi_not_hyphen h)
      | rOrN _ h => subst e2; exact absurd hhy (rafsi_not_hyphen h)
      | afterY _ h => exact h
      | afterR h => exact h
      | afterN h => exact h
    have hra : Reading s.yHyphens s.allowMz (a' ++ [z]) := by
      refine ⟨?_, ⟨z, by simp, hzr⟩, fun q hq => hd q (List.mem_append_left _ hq), ?_, ?_⟩
      · obtain ⟨r, hr, hrr⟩ := h1
        refine ⟨r, ?_, hrr⟩
        cases a' with
        | nil => simpa using hr
        | cons _ _ => simpa using hr
      · intro u x y v' e2
        exact hk u x y (v' ++ h :: w :: b') (by rw [e2]; simp)
      · rintro x y c v' - e2
        exact hna (by rw [e2]; simp)
    obtain ⟨c, hc, hcl⟩ := reading_lastLetter hra
    obtain ⟨c', hc', hcl'⟩ := pseg_last hp
    have hnp := pseg_noY hp
    obtain ⟨pre, rfl, hpre⟩ : ∃ pre, h = pre ++ s%"y" ∧ (pre = [] ∨ pre = s%"'") := by
      rcases hh with rfl | rfl
      · exact ⟨[], rfl, .inl rfl⟩
      · exact ⟨s%"'", rfl, .inr rfl⟩
    have e3 : ((a' ++ [z]).flatten ++ pre) ++ 'y' :: (w :: b').flatten = (p.core ++ (if p.trail then s%"'" else [])) ++ 'y' :: joinParts (q :: v) := by
      rw [← e]
      simp
    obtain ⟨e4, e5⟩ := cut_at (by
      rw [List.mem_append]
      rintro (hm | hm)
      · exact hna hm
      · rcases hpre with rfl | rfl <;> revert hm <;> decide) (by
      rw [List.mem_append]
      rintro (hm | hm)
      · exact hnp hm
      · split at hm <;> revert hm <;> decide) e3
    have hq : ∀ {c : Char}, Vowel c ∨ Consonant c → c ≠ '\'' := by rintro c h rfl; revert h; decide
    have e6 : (a' ++ [z]).flatten = p.core ∧ pre = (if p.trail then s%"'" else []) := by
      have e7 := congrArg List.getLast? e4
      rcases hpre with rfl | rfl
      · cases ht : p.trail with
        | false => rw [ht] at e4; simpa using e4
        | true =>
          rw [ht] at e7
          simp only [if_pos, List.append_nil] at e7
          rw [hc] at e7
          simp at e7
          exact absurd e7 (hq hcl)
      · cases ht : p.trail with
        | true =>
          rw [ht] at e4
          exact ⟨List.append_cancel_right e4, rfl⟩
        | false =>
          rw [ht] at e7
          simp [hc'] at e7
          exact absurd e7.symm (hq hcl')
    obtain ⟨e6, rfl⟩ := e6
    have hap := pseg_read hp hra e6 (by
      intro ht _
      obtain ⟨d, hd', hdc⟩ := hy a' z (w :: b') (by rw [ht]; simp)
      refine ⟨d, ?_, hdc⟩
      rw [← e6, List.flatten_append, getLast?_append_ne _ (by simpa using rafsi_ne hzr)]
      simpa using hd')
    have hql : q.lead = false := by
      cases hl' : q.lead with
      | false => rfl
      | true =>
        obtain ⟨t, et⟩ := joinParts_head (v := v) hl'
        obtain ⟨x, t', rfl, hx⟩ := rafsi_first hwr
        rw [et] at e5
        simp at e5
        rw [e5.1] at hx
        revert hx
        decide
    have := ih (by rintro _ _ ⟨⟩; exact hql) (qs := w :: b') (fun u x y v' e2 => hk (a' ++ [z] ++ ((if p.trail then s%"'" else []) ++ s%"y") :: u) x y v' (by rw [e2]; simp))
      ⟨w, rfl, hwr⟩ (by
        obtain ⟨r, hr, hrr⟩ := h2
        refine ⟨r, ?_, hrr⟩
        rw [List.getLast?_append, List.getLast?_cons_cons] at hr
        cases hg : (w :: b').getLast? with
        | none => simp at hg
        | some g => rw [hg] at hr; simpa using hr)
      (fun x hx => hd x (List.mem_append_right _ (List.mem_cons_of_mem _ hx)))
      (fun u x v' e2 => hy (a' ++ [z] ++ ((if p.trail then s%"'" else []) ++ s%"y") :: u) x v' (by rw [e2]; simp)) e5
    rw [hap, this]
    simp [joinPieces, hql]

end Jvotci
