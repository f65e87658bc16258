import Verif.Lemmas.Words

/-!
# Helper lemmas: pieces that meet the specification are found
-/

namespace Jvotci

open Spec

theorem first_true {s : Settings} {x x' h' : Str} {t : List (Str × Str)} : firstHyphen s true x x' h' t = lateHyphen s.allowMz x x' := by
  unfold firstHyphen lateHyphen
  split
  · rfl
  · simp

theorem flat_eq_nil {m : List (Str × Str)} (h : [] = flat m) : m = [] := by
  cases m with
  | nil => rfl
  | cons a m =>
    obtain ⟨x, k⟩ := a
    obtain ⟨v, hv⟩ := flat_head (x := x) (h := k) (l := m)
    rw [hv] at h; cases h

theorem flat_one {m : List (Str × Str)} {q k : Str} (h : [q] = flat ((q, k) :: m)) : m = [] ∧ k = [] := by
  by_cases hk : k = []
  · subst hk
    rw [flat_bare] at h
    exact ⟨flat_eq_nil (List.cons.inj h).2, rfl⟩
  · rw [flat_hyphen hk] at h
    cases h

theorem made_cmevlaPieces {s : Settings} {l m : List (Str × Str)} (h : Made s true l) (ha : Apt s true l) (hE : Ext s.yHyphens l m)
    (hd : ∀ p ∈ l, Diph p.1) (hF : FirstExtra l m) : CmevlaPieces s (flat m) := by
  have hm := ext_rafsi hE h.canon h.rafsi
  have late : ∀ {p k q l1 l2 h'}, l = l1 ++ (p, k) :: (q, h') :: l2 → k = lateHyphen s.allowMz p q := by
    rintro p k q l1 l2 h' rfl
    rcases canon_split h.canon with ⟨rfl, hh⟩ | ⟨-, hh⟩
    · rw [hh, first_true]
    · exact hh
  refine ⟨ext_reading h hE hd, made_two h hE, ?_, ?_, ?_, ?_⟩
  · obtain ⟨c, hc, hv⟩ := ha.ends
    exact ⟨c, by rw [flat_spell, made_last h hE, hc], by simpa using hv⟩
  · intro u p q v e
    obtain ⟨m1, k, m2, rfl, rfl, e2⟩ := flat_split hm e (by decide)
    obtain ⟨l1, l2, rfl, h0, hE2⟩ := ext_split (.inl rfl) hE
    have hq : ∃ k' l3, l2 = (q, k') :: l3 := by
      have := hE2.fst
      match l2, this with
      | (a, b) :: l3, this => simp at this; rw [this.1]; exact ⟨_, _, rfl⟩
    obtain ⟨k', l3, rfl⟩ := hq
    have hp := h.rafsi (p, s%"y") (by simp)
    have hq := h.rafsi (q, k') (by simp)
    have hlong := h.long (p, s%"y") (by rw [List.dropLast_append_of_ne_nil (by simp)]; simp)
    rw [fit_needY hp hq hlong, Classical.not_not]
    exact lateHyphen_y (late rfl).symm
  · intro hmem
    obtain ⟨p, hp, hh⟩ := mem_flat.1 hmem
    rcases hh with hh | ⟨hn, hh⟩
    · exact rafsi_not_hyphen (hm p hp).1 (by rw [← hh]; decide)
    · obtain ⟨m1, m2, rfl⟩ := List.append_of_mem hp
      obtain ⟨x, k⟩ := p
      simp only at hh
      subst hh
      obtain ⟨l1, l2, rfl, h0, hE2⟩ := ext_split (.inr rfl) hE
      cases l2 with
      | nil =>
        obtain ⟨u, z, e⟩ := canon_end h.canon
        have := congrArg List.getLast? e
        simp at this
      | cons a l2 =>
        obtain ⟨q, k'⟩ := a
        have := late rfl
        rcases late_cases s.allowMz x q with h | ⟨h, -⟩ <;> rw [h] at this <;> cases this
  · intro p q v e
    obtain ⟨hr, hrn, e⟩ : ∃ r, (r = s%"r" ∨ r = s%"n") ∧ flat m = p :: r :: q :: v := by
      rcases e with e | e
      · exact ⟨_, .inl rfl, e⟩
      · exact ⟨_, .inr rfl, e⟩
    obtain ⟨m1, k, m2, hme, hm1, e2⟩ := flat_split (u := []) hm e (rn_hyphen hrn)
    have := flat_eq_nil hm1
    subst this
    have hne : hr ≠ [] := by rcases hrn with rfl | rfl <;> simp
    have hl : ∃ l', l = (p, []) :: l' := by
      generalize hm0 : m = m0 at hE
      cases hE with
      | nil => rw [hm0] at hme; cases hme
      | @same a l m hE =>
        rw [hm0] at hme
        obtain ⟨rfl, rfl⟩ := List.cons.inj hme
        have hf := hE.fst
        match l, hf with
        | (a, b) :: l, hf =>
          simp at hf
          have := late (l1 := []) rfl
          rcases late_cases s.allowMz p a with h | ⟨h, -⟩ <;> rw [h] at this <;> subst this
          · rcases hrn with h | h <;> cases h
          · exact absurd rfl hne
      | extra =>
        rw [hm0] at hme
        have := (Prod.mk.inj (List.cons.inj hme).1).1
        subst this
        exact ⟨_, rfl⟩
    obtain ⟨l', rfl⟩ := hl
    simp only [List.mem_cons, List.not_mem_nil, or_false]
    rcases hF p hr q k l' m2 rfl hme hne with h | h | h
    · exact .inr (.inr (pattern_ccvcv.2 h))
    · exact .inr (.inl (pattern_ccvc.2 h))
    · exact .inl (pattern_ccv.2 h)

/-- The first joint: the hyphen is canonical, or an extra r or n. -/
theorem first_joint {s : Settings} {g : Bool} {x h x' h' h1 : Str} {t l : List (Str × Str)} (hx : Rafsi s.allowMz x) (hx' : Rafsi s.allowMz x')
    (hg : Glue h) (hb : Between s.yHyphens s.allowMz x h x')
    (hy : h = s%"y" → NeedY s.allowMz x x' ∨ (g = false ∧ Tosm ((x, []) :: (x', h1) :: l)))
    (hay : h = s%"'y" → g = false ∧ s.yHyphens = .forceY ∧ kindOf x = .vv ∧ ¬ (l = [] ∧ kindOf x' = .ccv))
    (hfirst : g = false → kindOf x = .vv → h = [] → l = [] ∧ kindOf x' = .ccv)
    (hwhole : g = false → h = [] → ¬ Tosm ((x, []) :: (x', h1) :: l))
    (hE : Ext s.yHyphens ((x', h1) :: l) ((x', h') :: t)) :
    Ext s.yHyphens ((x, firstHyphen s g x x' h1 l) :: (x', h1) :: l) ((x, h) :: (x', h') :: t) := by
  have hlx := between_long hx hb
  have bare : h = [] → ¬ NeedY s.allowMz x x' := by
    rintro rfl
    rw [← fit_needY hx hx' hlx]
    have hlk := hb.1 rfl
    generalize hxe : x' = x2 at hlk
    cases hlk with
    | rafsi _ _ h1 h2 h3 => exact ⟨h1, h2, h3⟩
    | y => exact absurd (show Hyphen s%"y" by decide) (hxe ▸ rafsi_not_hyphen hx')
    | apostropheY => exact absurd (show Hyphen s%"'y" by decide) (hxe ▸ rafsi_not_hyphen hx')
    | rOrN _ _ _ h => exact absurd (rn_hyphen (by simpa using h)) (hxe ▸ rafsi_not_hyphen hx')
    | afterY h => exact absurd (by simp at h; rcases h with rfl | rfl <;> decide) (rafsi_not_hyphen hx)
    | afterR => exact absurd (by decide) (rafsi_not_hyphen hx)
    | afterN => exact absurd (by decide) (rafsi_not_hyphen hx)
  have rn : h = s%"r" ∨ h = s%"n" → s.yHyphens ≠ .forceY ∧ kindOf x = .vv ∧ h = if x'.head? = some 'r' then s%"n" else s%"r" := by
    intro hrn
    have hne : h ≠ [] := by rcases hrn with rfl | rfl <;> simp
    obtain ⟨hl1, hl2⟩ := hb.2 hne
    have hvr : s.yHyphens ≠ .forceY ∧ VowelRafsi x := by
      generalize hhe : h = h0 at hl1
      cases hl1 with
      | rafsi _ h => exact absurd (rn_hyphen hrn) (hhe ▸ rafsi_not_hyphen h)
      | y => rcases hrn with h | h <;> rw [h] at hhe <;> cases hhe
      | apostropheY => rcases hrn with h | h <;> rw [h] at hhe <;> cases hhe
      | rOrN h1 _ h2 => exact ⟨h1, h2⟩
      | afterY _ h => exact absurd (rn_hyphen hrn) (hhe ▸ rafsi_not_hyphen h)
      | afterR => exact absurd (by decide) (rafsi_not_hyphen hx)
      | afterN => exact absurd (by decide) (rafsi_not_hyphen hx)
    refine ⟨hvr.1, (kind_vowelRafsi hx).1 hvr.2, ?_⟩
    generalize hh0 : h = h0 at hl2
    cases hl2 with
    | rafsi h => exact absurd (rn_hyphen hrn) (hh0 ▸ rafsi_not_hyphen h)
    | y h => exact absurd (rn_hyphen hrn) (hh0 ▸ rafsi_not_hyphen h)
    | apostropheY _ h => exact absurd (rn_hyphen hrn) (hh0 ▸ rafsi_not_hyphen h)
    | rOrN _ h => exact absurd (rn_hyphen hrn) (hh0 ▸ rafsi_not_hyphen h)
    | afterY h => rcases hrn with h' | h' <;> rw [← hh0, h'] at h <;> simp at h
    | afterR _ h => rw [if_neg h]
    | afterN _ h => rw [if_pos h]
  have tosmk : ∀ {h1 l}, Tosm ((x, []) :: (x', h1) :: l) → kindOf x = .cvc := by
    intro h1 l hT
    generalize hl : (x, ([] : Str)) :: (x', h1) :: l = l0 at hT
    cases hT <;> simp only [List.cons.injEq, Prod.mk.injEq] at hl <;> rw [hl.1.1] <;> assumption
  have same : firstHyphen s g x x' h1 l = h → Ext s.yHyphens ((x, firstHyphen s g x x' h1 l) :: (x', h1) :: l) ((x, h) :: (x', h') :: t) := by
    intro e; rw [e]; exact .same hE
  by_cases c1 : NeedY s.allowMz x x'
  · have hf : firstHyphen s g x x' h1 l = s%"y" := by unfold firstHyphen; rw [if_pos c1]
    have hk := needY_kind c1
    rcases hg with h0 | h0 | h0 | h0
    · exact absurd c1 (bare h0)
    · exact same (by rw [hf, h0])
    · have := (hay h0).2.2.1
      rw [this] at hk; rcases hk with h | h <;> cases h
    · have := (rn h0).2.1
      rw [this] at hk; rcases hk with h | h <;> cases h
  · by_cases c2 : kindOf x = .vv ∧ g = false ∧ ¬ (l = [] ∧ kindOf x' = .ccv)
    · have hf : firstHyphen s g x x' h1 l = if s.yHyphens = .forceY then s%"'y" else if x'.head? = some 'r' then s%"n" else s%"r" := by
        unfold firstHyphen; rw [if_neg c1, if_pos c2]
      rcases hg with h0 | h0 | h0 | h0
      · exact absurd (hfirst c2.2.1 c2.1 h0) c2.2.2
      · rcases hy h0 with h | ⟨-, h⟩
        · exact absurd h c1
        · have := tosmk h
          rw [c2.1] at this; cases this
      · exact same (by rw [hf, if_pos (hay h0).2.1, h0])
      · have := rn h0
        exact same (by rw [hf, if_neg this.1, ← this.2.2])
    · by_cases c3 : g = false ∧ Tosm ((x, []) :: (x', h1) :: l)
      · have hf : firstHyphen s g x x' h1 l = s%"y" := by unfold firstHyphen; rw [if_neg c1, if_neg c2, if_pos c3]
        have hk := tosmk c3.2
        rcases hg with h0 | h0 | h0 | h0
        · exact absurd c3.2 (hwhole c3.1 h0)
        · exact same (by rw [hf, h0])
        · have := (hay h0).2.2.1
          rw [this] at hk; cases hk
        · have := (rn h0).2.1
          rw [this] at hk; cases hk
      · have hf : firstHyphen s g x x' h1 l = [] := by unfold firstHyphen; rw [if_neg c1, if_neg c2, if_neg c3]
        rcases hg with h0 | h0 | h0 | h0
        · exact same (by rw [hf, h0])
        · rcases hy h0 with h | h
          · exact absurd h c1
          · exact absurd h c3
        · have := hay h0
          exact absurd ⟨this.2.2.1, this.1, this.2.2.2⟩ c2
        · have := rn h0
          rw [hf, this.2.2]
          exact .extra this.1 this.2.1 hE

theorem spell_ext_length {y : YHyphens} {l m : List (Str × Str)} (h : Ext y l m) : (spell l).length ≤ (spell m).length := by
  induction h with
  | nil => simp
  | same _ ih => simp only [spell, List.map_cons, List.flatten_cons, List.length_append] at ih ⊢; omega
  | extra _ _ _ ih => simp only [spell, List.map_cons, List.flatten_cons, List.length_append] at ih ⊢; simp at ih ⊢; omega

/-- Taking a sequence of pieces apart into the first rafsi and the rest. -/
theorem reading_two {y : YHyphens} {mz : Bool} {ps : List Str} (h : Reading y mz ps) (h2 : 2 ≤ ps.length) :
    ∃ x k x' k' t, ps = flat ((x, k) :: (x', k') :: t) ∧ (∀ p ∈ (x, k) :: (x', k') :: t, Rafsi mz p.1 ∧ Glue p.2 ∧ Diph p.1) ∧
      (∃ u z, (x', k') :: t = u ++ [(z, [])]) ∧ Between y mz x k x' ∧ Links y mz (flat ((x', k') :: t)) := by
  obtain ⟨m, rfl, hm, ⟨u, z, hu⟩, hlk⟩ := reading_flat h
  match m, hm, hu, hlk, h2 with
  | [], _, hu, _, _ => simp at hu
  | [(x, k)], _, hu, _, h2 =>
    cases u with
    | nil => simp at hu; simp [hu.2, flat, piecesOf] at h2
    | cons a u => simp at hu
  | (x, k) :: (x', k') :: t, hm, hu, hlk, _ =>
    refine ⟨x, k, x', k', t, rfl, hm, ?_, (links_flat.1 hlk).1, (links_flat.1 hlk).2⟩
    cases u with
    | nil => simp at hu
    | cons a u => exact ⟨u, z, (List.cons.inj hu).2⟩

theorem flat_cut (x k : Str) (m : List (Str × Str)) : ∃ u, flat ((x, k) :: m) = u ++ flat m ∧ u ≠ [] := by
  by_cases hk : k = []
  · subst hk; exact ⟨[x], by rw [flat_bare]; rfl, by simp⟩
  · exact ⟨[x, k], by rw [flat_hyphen hk]; rfl, by simp⟩

theorem lujvoPieces_made {s : Settings} {ps : List Str} (h : LujvoPieces s ps) :
    ∃ l m, ps = flat m ∧ Made s false l ∧ Apt s false l ∧ Ext s.yHyphens l m ∧ FirstExtra l m ∧ ∀ p ∈ l, Diph p.1 := by
  obtain ⟨x, k, x', k', t, rfl, hm, hend, hb, hlk⟩ := reading_two h.reading h.two
  obtain ⟨hx, hg, hdx⟩ := hm (x, k) (by simp)
  obtain ⟨hx', hg', hdx'⟩ := hm (x', k') (by simp)
  obtain ⟨u0, hu0, hu0n⟩ := flat_cut x k ((x', k') :: t)
  simp only at hx hg hx' hg' hdx hdx'
  have hm' : ∀ p ∈ (x', k') :: t, Rafsi s.allowMz p.1 ∧ Glue p.2 := fun p hp => ⟨(hm p (List.mem_cons_of_mem _ hp)).1, (hm p (List.mem_cons_of_mem _ hp)).2.1⟩
  have hmm : ∀ p ∈ (x, k) :: (x', k') :: t, Rafsi s.allowMz p.1 ∧ Glue p.2 := fun p hp => ⟨(hm p hp).1, (hm p hp).2.1⟩
  obtain ⟨l, hT, hE, hlong⟩ := ext_tail hm' hend hlk
    (by
      intro u p q v e
      have := h.y (u0 ++ u) p q v (by rw [hu0, e]; simp)
      rcases this with h | ⟨h, -⟩
      · exact h
      · simp [hu0n] at h)
    (by
      intro hmem
      obtain ⟨q, hq, hh⟩ := mem_flat.1 hmem
      rcases hh with hh | ⟨hn, hh⟩
      · exact rafsi_not_hyphen (hm' q hq).1 (by rw [← hh]; decide)
      · obtain ⟨u, v, e⟩ := List.append_of_mem hq
        obtain ⟨y, k2⟩ := q
        simp only at hh
        subst hh
        cases v with
        | nil =>
          obtain ⟨w, z, hw⟩ := hend
          rw [hw] at e
          have := congrArg List.getLast? e
          simp at this
        | cons a v =>
          obtain ⟨y', k3⟩ := a
          obtain ⟨v', hv'⟩ := flat_head (x := y') (h := k3) (l := v)
          have := (h.apostropheY (u0 ++ flat u) y y' v' (by
            rw [hu0, e]
            have : flat (u ++ (y, s%"'y") :: (y', k3) :: v) = flat u ++ flat ((y, s%"'y") :: (y', k3) :: v) := by simp [flat]
            rw [this, flat_hyphen (by simp), hv']; simp)).2.1
          simp [hu0n] at this)
  match l, hT, hE, hlong with
  | [], hT, _, _ => cases hT
  | (a, h1) :: l, hT, hE, hlong =>
    have hax : a = x' := by have := hE.fst; simp at this; exact this.1
    subst hax
    have hlt : l = [] → t = [] := by
      rintro rfl
      have := hE.fst; simpa using this
    have htl : t = [] → l = [] := by
      rintro rfl
      have := hE.fst; simpa using this
    obtain ⟨v', hv'⟩ := flat_head (x := a) (h := k') (l := t)
    have hlast : t = [] → k' = [] := by
      rintro rfl
      obtain ⟨w, z, hw⟩ := hend
      cases w with
      | nil => simp at hw; exact hw.2
      | cons b w => simp at hw
    have hv0 : v' = [] ↔ t = [] := by
      constructor
      · rintro rfl
        exact (flat_one hv'.symm).1
      · intro h0
        have := hlast h0
        subst h0 this
        simp [flat, piecesOf] at hv'
        exact hv'
    have hay : k = s%"'y" → false = false ∧ s.yHyphens = .forceY ∧ kindOf x = .vv ∧ ¬ (l = [] ∧ kindOf a = .ccv) := by
      rintro rfl
      have := h.apostropheY [] x a v' (by rw [flat_hyphen (by simp), hv']; rfl)
      refine ⟨rfl, this.1, (kind_vowelRafsi hx).1 this.2.2.1, ?_⟩
      rintro ⟨h1, h2⟩
      exact this.2.2.2 ⟨hv0.2 (hlt h1), pattern_ccv.2 (kind_ccv.1 h2)⟩
    have hfirst : kindOf x = .vv → k = [] → l = [] ∧ kindOf a = .ccv := by
      rintro hk rfl
      have := h.first x a v' (by rw [flat_bare, hv']) ((kind_vowelRafsi hx).2 hk) (rafsi_not_hyphen hx')
      exact ⟨htl (hv0.1 this.1), kind_ccv.2 (pattern_ccv.1 this.2)⟩
    have hExt := first_joint (s := s) (g := false) (h1 := h1) (l := l) hx hx' hg hb (by
        rintro rfl
        have := h.y [] x a v' (by rw [flat_hyphen (by simp), hv']; rfl)
        rw [fit_needY hx hx' (between_long hx hb), Classical.not_not] at this
        rcases this with h | ⟨-, h⟩
        · exact .inl h
        · refine .inr ⟨rfl, tosm_ext (y := s.yHyphens) (m := (x, []) :: (a, k') :: t) (falls_tosm h (mz := s.allowMz) ?_ (by rw [flat_bare, hv'])) (.same hE)⟩
          intro p hp
          rcases List.mem_cons.1 hp with rfl | hp
          · exact ⟨hx, .inl rfl⟩
          · exact hm' p hp) hay (fun _ => hfirst) (by
        rintro - rfl hT
        exact h.whole (tosm_falls (ext_tosm hT (.same hE)))) hE
    have hMade : Made s false ((x, firstHyphen s false x a h1 l) :: (a, h1) :: l) := by
      refine ⟨.mk hT, ?_, ?_⟩
      · intro p hp
        have : p.1 ∈ ((x, k) :: (a, k') :: t).map Prod.fst := by rw [← hExt.fst]; exact List.mem_map.2 ⟨p, hp, rfl⟩
        obtain ⟨q, hq, e⟩ := List.mem_map.1 this
        rw [← e]; exact (hm q hq).1
      · intro p hp
        rw [List.dropLast_cons_of_ne_nil (by simp)] at hp
        rcases List.mem_cons.1 hp with rfl | hp
        · exact between_long hx hb
        · exact hlong p hp
    refine ⟨(x, firstHyphen s false x a h1 l) :: (a, h1) :: l, _, rfl, hMade, ⟨?_, ?_⟩, hExt, ?_, ?_⟩
    · intro hcl
      by_cases hv : ∃ p ∈ ((x, firstHyphen s false x a h1 l) :: (a, h1) :: l), kindOf p.1 ≠ .vv
      · exact .inl hv
      · refine .inr ⟨_, _, _, rfl, ?_⟩
        have hall : ∀ p ∈ ((x, firstHyphen s false x a h1 l) :: (a, h1) :: l), kindOf p.1 = .vv := by
          intro p hp
          exact Classical.byContradiction fun h => hv ⟨p, hp, h⟩
        have hkx := hall _ (List.mem_cons_self ..)
        have hka := hall (a, h1) (by simp)
        simp only at hkx hka
        obtain ⟨p, hp, hc⟩ := h.cluster hcl
        have hforce : s.yHyphens ≠ .forceY := by
          have hrn : p = s%"r" ∨ p = s%"n" := by
            rcases hc with h | h | ⟨h1', h2⟩
            · exact .inl h
            · exact .inr h
            · exfalso
              obtain ⟨q, hq, e⟩ := mem_flat.1 hp
              rcases e with e | ⟨hn, e⟩
              · refine h2 ((kind_vowelRafsi (e ▸ (hm q hq).1)).2 ?_)
                have : q.1 ∈ ((x, firstHyphen s false x a h1 l) :: (a, h1) :: l).map Prod.fst := by rw [hExt.fst]; exact List.mem_map.2 ⟨q, hq, rfl⟩
                obtain ⟨r, hr, e'⟩ := List.mem_map.1 this
                rw [e, ← e']; exact hall r hr
              · exact h1' (e ▸ (hm q hq).2.1.hyphen hn)
          have : ∀ u p v, Link s.yHyphens s.allowMz u p → p = s%"r" ∨ p = s%"n" → (∃ q, Link s.yHyphens s.allowMz p q ∧ v = q) → s.yHyphens ≠ .forceY := by
            rintro u p v hl hrn -
            generalize hpe : p = p0 at hl
            cases hl with
            | rafsi _ h => exact absurd (rn_hyphen hrn) (hpe ▸ rafsi_not_hyphen h)
            | y => rcases hrn with h | h <;> rw [h] at hpe <;> cases hpe
            | apostropheY => rcases hrn with h | h <;> rw [h] at hpe <;> cases hpe
            | rOrN h => exact h
            | afterY _ h => exact absurd (rn_hyphen hrn) (hpe ▸ rafsi_not_hyphen h)
            | afterR h => exact absurd (rn_hyphen hrn) (hpe ▸ rafsi_not_hyphen h)
            | afterN h => exact absurd (rn_hyphen hrn) (hpe ▸ rafsi_not_hyphen h)
          obtain ⟨u, v, e⟩ := List.append_of_mem hp
          match hu : u.reverse with
          | [] =>
            simp at hu; subst hu
            obtain ⟨v2, hv2⟩ := flat_head (x := x) (h := k) (l := (a, k') :: t)
            rw [hv2] at e
            have := (List.cons.inj e).1
            exact absurd (rn_hyphen hrn) (this ▸ rafsi_not_hyphen hx)
          | b :: u' =>
            have hue : u = u'.reverse ++ [b] := by
              have := congrArg List.reverse hu; simpa using this
            cases v with
            | nil =>
              have := h.reading.last
              obtain ⟨z, hz, hzr⟩ := this
              rw [e] at hz; simp at hz; subst hz
              exact absurd (rn_hyphen hrn) (rafsi_not_hyphen hzr)
            | cons d v =>
              refine this b p d (h.reading.links u'.reverse b p (d :: v) (by rw [e, hue]; simp)) hrn ⟨d, h.reading.links u p d v e, rfl⟩
        unfold firstHyphen
        rw [if_neg (fun hN => by rcases needY_kind hN with h | h <;> rw [hkx] at h <;> cases h),
          if_pos ⟨hkx, rfl, fun h => by rw [hka] at h; cases h.2⟩, if_neg hforce]
        split <;> simp
    · obtain ⟨c, hc, hv⟩ := h.vowel
      refine ⟨c, ?_, by simpa using hv⟩
      rw [← made_last hMade hExt, ← flat_spell, hc]
    · intro y hh y' h' l' m' e1 e2 hne
      simp only [List.cons.injEq, Prod.mk.injEq] at e1 e2
      obtain ⟨⟨rfl, e11⟩, e12⟩ := e1
      obtain ⟨⟨-, rfl⟩, ⟨rfl, rfl⟩, rfl⟩ := e2
      -- an extra r or n at the first joint
      have hkx : kindOf x = .vv := by
        generalize firstHyphen s false x a h1 l = f at *
        subst e11
        generalize hl0 : (x, ([] : Str)) :: (a, h1) :: l = l0 at hExt
        generalize hm0 : (x, k) :: (a, k') :: t = m0 at hExt
        cases hExt with
        | nil => cases hl0
        | same =>
          have e1 := (List.cons.inj hl0).1
          have e2 := (List.cons.inj hm0).1
          exact absurd (Prod.mk.inj (e2.trans e1.symm)).2 hne
        | extra _ hk =>
          rw [(Prod.mk.inj (List.cons.inj hl0).1).1]; exact hk
      refine .inr (.inr (kind_ccv.1 ?_))
      unfold firstHyphen at e11
      split at e11
      · cases e11
      · split at e11
        · split at e11
          · cases e11
          · split at e11 <;> cases e11
        · rename_i h2
          simp only [hkx, true_and, Classical.not_not] at h2
          exact h2.2
    · intro p hp
      have : p.1 ∈ ((x, k) :: (a, k') :: t).map Prod.fst := by rw [← hExt.fst]; exact List.mem_map.2 ⟨p, hp, rfl⟩
      obtain ⟨q, hq, e⟩ := List.mem_map.1 this
      rw [← e]; exact (hm q hq).2.2

theorem cmevlaPieces_made {s : Settings} {ps : List Str} (h : CmevlaPieces s ps) :
    ∃ l m, ps = flat m ∧ Made s true l ∧ Apt s true l ∧ Ext s.yHyphens l m ∧ FirstExtra l m ∧ ∀ p ∈ l, Diph p.1 := by
  obtain ⟨x, k, x', k', t, rfl, hm, hend, hb, hlk⟩ := reading_two h.reading h.two
  obtain ⟨hx, hg, hdx⟩ := hm (x, k) (by simp)
  obtain ⟨hx', hg', hdx'⟩ := hm (x', k') (by simp)
  obtain ⟨u0, hu0, hu0n⟩ := flat_cut x k ((x', k') :: t)
  simp only at hx hg hx' hg' hdx hdx'
  have hm' : ∀ p ∈ (x', k') :: t, Rafsi s.allowMz p.1 ∧ Glue p.2 := fun p hp => ⟨(hm p (List.mem_cons_of_mem _ hp)).1, (hm p (List.mem_cons_of_mem _ hp)).2.1⟩
  obtain ⟨l, hT, hE, hlong⟩ := ext_tail hm' hend hlk
    (by
      intro u p q v e
      exact h.y (u0 ++ u) p q v (by rw [hu0, e]; simp))
    (fun hmem => h.apostropheY (by rw [hu0]; exact List.mem_append_right _ hmem))
  match l, hT, hE, hlong with
  | [], hT, _, _ => cases hT
  | (a, h1) :: l, hT, hE, hlong =>
    have hax : a = x' := by have := hE.fst; simp at this; exact this.1
    subst hax
    obtain ⟨v', hv'⟩ := flat_head (x := a) (h := k') (l := t)
    have hExt := first_joint (s := s) (g := true) (h1 := h1) (l := l) hx hx' hg hb (by
        rintro rfl
        have := h.y [] x a v' (by rw [flat_hyphen (by simp), hv']; rfl)
        rw [fit_needY hx hx' (between_long hx hb), Classical.not_not] at this
        exact .inl this) (by
        rintro rfl
        exact absurd (mem_flat.2 ⟨(x, s%"'y"), by simp, .inr ⟨by simp, rfl⟩⟩) h.apostropheY) (by simp) (by simp) hE
    have hMade : Made s true ((x, firstHyphen s true x a h1 l) :: (a, h1) :: l) := by
      refine ⟨.mk hT, ?_, ?_⟩
      · intro p hp
        have : p.1 ∈ ((x, k) :: (a, k') :: t).map Prod.fst := by rw [← hExt.fst]; exact List.mem_map.2 ⟨p, hp, rfl⟩
        obtain ⟨q, hq, e⟩ := List.mem_map.1 this
        rw [← e]; exact (hm q hq).1
      · intro p hp
        rw [List.dropLast_cons_of_ne_nil (by simp)] at hp
        rcases List.mem_cons.1 hp with rfl | hp
        · exact between_long hx hb
        · exact hlong p hp
    have hends : ∃ c, (spell ((x, firstHyphen s true x a h1 l) :: (a, h1) :: l)).getLast? = some c ∧ Consonant c := by
      obtain ⟨c, hc, hv⟩ := h.consonant
      refine ⟨c, ?_, hv⟩
      rw [← made_last hMade hExt, ← flat_spell, hc]
    refine ⟨(x, firstHyphen s true x a h1 l) :: (a, h1) :: l, _, rfl, hMade, ⟨?_, ?_⟩, hExt, ?_, ?_⟩
    · intro _
      obtain ⟨u, z, e⟩ := canon_end hMade.canon
      refine .inl ⟨(z, []), by rw [e]; simp, ?_⟩
      intro hk
      obtain ⟨c, hc, hcc⟩ := hends
      rw [e] at hc
      have hz := hMade.rafsi (z, []) (by rw [e]; simp)
      simp only at hk hz
      simp only [spell, List.map_append, List.flatten_append, List.map_cons, List.map_nil, List.flatten_cons, List.flatten_nil, List.append_nil, List.getLast?_append] at hc
      obtain ⟨c1, a1, b1, -, hb1, e1 | e1⟩ := (kind_vowelRafsi hz).2 hk
      · subst e1; simp at hc; subst hc; exact vowel_not_consonant hb1 hcc
      · subst e1; simp at hc; subst hc; exact vowel_not_consonant hb1 hcc
    · obtain ⟨c, hc, hv⟩ := hends
      exact ⟨c, hc, by simpa using hv⟩
    · intro y hh y' h' l' m' e1 e2 hne
      simp only [List.cons.injEq, Prod.mk.injEq] at e1 e2
      obtain ⟨⟨rfl, e11⟩, e12⟩ := e1
      obtain ⟨⟨-, rfl⟩, ⟨rfl, rfl⟩, rfl⟩ := e2
      have hrn : k = s%"r" ∨ k = s%"n" := by
        generalize firstHyphen s true x a h1 l = f at *
        subst e11
        generalize hl0 : (x, ([] : Str)) :: (a, h1) :: l = l0 at hExt
        generalize hm0 : (x, k) :: (a, k') :: t = m0 at hExt
        cases hExt with
        | nil => cases hl0
        | same =>
          have e1 := (List.cons.inj hl0).1
          have e2 := (List.cons.inj hm0).1
          exact absurd (Prod.mk.inj (e2.trans e1.symm)).2 hne
        | extra _ hk =>
          have := (Prod.mk.inj (List.cons.inj hm0).1).2
          rw [this]; split <;> simp
      have := h.first x a v' (by
        rw [flat_hyphen hne, hv']
        rcases hrn with rfl | rfl <;> simp)
      simp only [List.mem_cons, List.not_mem_nil, or_false] at this
      rcases this with h | h | h
      · exact .inr (.inr (pattern_ccv.1 h))
      · exact .inr (.inl (pattern_ccvc.1 h))
      · exact .inl (pattern_ccvcv.1 h)
    · intro p hp
      have : p.1 ∈ ((x, k) :: (a, k') :: t).map Prod.fst := by rw [← hExt.fst]; exact List.mem_map.2 ⟨p, hp, rfl⟩
      obtain ⟨q, hq, e⟩ := List.mem_map.1 this
      rw [← e]; exact (hm q hq).2.2

end Jvotci
