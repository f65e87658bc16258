import Verif.Lemmas.Slin

/-!
# Helper lemmas: pieces and pairs of rafsi and hyphen
-/

namespace Jvotci

open Spec

/-- A sequence of linked pieces is one of rafsi, each with the hyphen behind it. -/
theorem unflat {y : YHyphens} {mz : Bool} : ∀ (n : Nat) {p : Str} {ps : List Str}, ps.length < n → Rafsi mz p → Links y mz (p :: ps) →
    (∃ q, (p :: ps).getLast? = some q ∧ Rafsi mz q) →
    ∃ h m, p :: ps = flat ((p, h) :: m) ∧ (∀ q ∈ (p, h) :: m, Rafsi mz q.1 ∧ Glue q.2) ∧ ∃ u x, (p, h) :: m = u ++ [(x, [])] := by
  intro n
  induction n with
  | zero => intro p ps h; omega
  | succ n ih =>
    intro p ps hn hp hl hlast
    match ps, hn, hl, hlast with
    | [], _, _, _ => exact ⟨[], [], rfl, by intro q hq; simp at hq; subst hq; exact ⟨hp, .inl rfl⟩, [], p, rfl⟩
    | q :: ps, hn, hl, hlast =>
      have hpq := (links_cons.1 hl).1
      have hl' := (links_cons.1 hl).2
      have hlast' : ∃ q', (q :: ps).getLast? = some q' ∧ Rafsi mz q' := by simpa using hlast
      by_cases hq : Rafsi mz q
      · obtain ⟨h, m, e, hm, u, x, hu⟩ := ih (by simp at hn; omega) hq hl' hlast'
        refine ⟨[], (q, h) :: m, by rw [flat_bare, e], ?_, (p, []) :: u, x, by rw [hu]; rfl⟩
        intro r hr
        rcases List.mem_cons.1 hr with rfl | hr
        · exact ⟨hp, .inl rfl⟩
        · exact hm r hr
      · have hg : Glue q ∧ q ≠ [] := by
          have notp : ∀ {r}, Hyphen r → p ≠ r := fun h e => rafsi_not_hyphen hp (e ▸ h)
          generalize hpe : p = p0 at hpq
          cases hpq with
          | rafsi _ h => exact absurd h hq
          | y => simp [Glue]
          | apostropheY => simp [Glue]
          | rOrN _ _ _ h => simp at h; rcases h with rfl | rfl <;> simp [Glue]
          | afterY _ h => exact absurd h hq
          | afterR h => exact absurd h hq
          | afterN h => exact absurd h hq
        match ps, hn, hl', hlast' with
        | [], _, _, hlast' =>
          obtain ⟨q', e, hq'⟩ := hlast'
          simp at e; subst e
          exact absurd hq' hq
        | r :: ps, hn, hl', hlast' =>
          have hqr := (links_cons.1 hl').1
          have hr : Rafsi mz r := by
            have hh := hg.1.hyphen hg.2
            generalize hqe : q = q0 at hqr hh
            cases hqr with
            | rafsi h => exact absurd hh (rafsi_not_hyphen h)
            | y h => exact absurd hh (rafsi_not_hyphen h)
            | apostropheY _ h => exact absurd hh (rafsi_not_hyphen h)
            | rOrN _ h => exact absurd hh (rafsi_not_hyphen h)
            | afterY _ h => exact h
            | afterR h => exact h
            | afterN h => exact h
          obtain ⟨h, m, e, hm, u, x, hu⟩ := ih (by simp at hn; omega) hr (links_cons.1 hl').2 (by simpa using hlast')
          refine ⟨q, (r, h) :: m, by rw [flat_hyphen hg.2, e], ?_, (p, q) :: u, x, by rw [hu]; rfl⟩
          intro r hr
          rcases List.mem_cons.1 hr with rfl | hr
          · exact ⟨hp, hg.1⟩
          · exact hm r hr

theorem reading_flat {y : YHyphens} {mz : Bool} {ps : List Str} (h : Reading y mz ps) :
    ∃ m, ps = flat m ∧ (∀ p ∈ m, Rafsi mz p.1 ∧ Glue p.2 ∧ Diph p.1) ∧ (∃ u x, m = u ++ [(x, [])]) ∧ Links y mz (flat m) := by
  obtain ⟨⟨p, hf, hp⟩, hl, hd, hlk, -⟩ := h
  cases ps with
  | nil => cases hf
  | cons q ps =>
    simp at hf
    subst hf
    obtain ⟨h, m, e, hm, hu⟩ := unflat _ (Nat.lt_succ_self _) hp hlk hl
    refine ⟨_, e, fun r hr => ⟨(hm r hr).1, (hm r hr).2, ?_⟩, hu, e ▸ hlk⟩
    exact hd r.1 (by rw [e, mem_flat]; exact ⟨r, hr, .inl rfl⟩)

theorem meet_iff {p q : Str} : MeetInitial p q ↔ Meet p q := Iff.rfl

theorem tosm_falls {m : List (Str × Str)} (h : Tosm m) : FallsApart (flat m) := by
  induction h with
  | gismu h1 h2 h3 h4 =>
    rename_i x a b c d e h t
    rw [flat_bare]
    obtain ⟨v, hv⟩ := flat_head (x := [a, b, c, d, e]) (h := h) (l := t)
    rw [hv]
    exact .gismu (pattern_cvc.2 (kind_cvc h1)) h2 h3 h4
  | y h1 h2 h3 =>
    rw [flat_bare, flat_hyphen (by simp)]
    exact .y (pattern_cvc.2 (kind_cvc h1)) h2 (pattern_cvc.2 (kind_cvc h3))
  | @step x x' h' t h1 h2 h3 ih =>
    rw [flat_bare]
    obtain ⟨v, hv⟩ := flat_head (x := x') (h := h') (l := t)
    rw [hv] at ih ⊢
    exact .more (pattern_cvc.2 (kind_cvc h1)) h2 ih

theorem falls_first {ps : List Str} (h : FallsApart ps) : ∃ p v, ps = p :: v ∧ pattern p = s%"CVC" := by
  cases h with
  | gismu h => exact ⟨_, _, rfl, h⟩
  | y h => exact ⟨_, _, rfl, h⟩
  | more h => exact ⟨_, _, rfl, h⟩

theorem falls_tosm {mz : Bool} {ps : List Str} (h : FallsApart ps) : ∀ {m : List (Str × Str)}, (∀ p ∈ m, Rafsi mz p.1 ∧ Glue p.2) →
    ps = flat m → Tosm m := by
  have hyp : ∀ {q : Str} {P : Str}, pattern q = P → 2 < P.length ∧ P.head? = some 'C' → Hyphen q → False := by
    intro q P h1 h2 h3
    subst h1
    simp only [Hyphen, List.mem_cons, List.not_mem_nil, or_false] at h3
    rcases h3 with rfl | rfl | rfl | rfl | rfl | rfl <;> revert h2 <;> decide
  -- the first pair has no hyphen
  have first : ∀ {p q : Str} {v : List Str} {m : List (Str × Str)}, (∀ p ∈ m, Rafsi mz p.1 ∧ Glue p.2) → p :: q :: v = flat m →
      ¬ Hyphen q → ∃ h m', m = (p, []) :: (q, h) :: m' ∧ q :: v = flat ((q, h) :: m') := by
    intro p q v m hm e hq
    cases m with
    | nil => cases e
    | cons a m =>
      obtain ⟨x, h⟩ := a
      by_cases hh : h = []
      · subst hh
        rw [flat_bare] at e
        cases m with
        | nil => cases e
        | cons a m =>
          obtain ⟨x', h'⟩ := a
          obtain ⟨v', hv'⟩ := flat_head (x := x') (h := h') (l := m)
          rw [hv'] at e
          cases e
          exact ⟨h', m, rfl, hv'.symm⟩
      · rw [flat_hyphen hh] at e
        cases e
        exact absurd ((hm (p, q) (by simp)).2.hyphen hh) hq
  induction h with
  | gismu h1 h2 h3 h4 =>
    intro m hm e
    obtain ⟨h, m', rfl, -⟩ := first hm e (fun h => hyp h3 (by decide) h)
    exact .gismu (kind_cvc_iff.2 (pattern_cvc.1 h1)) h2 h3 h4
  | @y p q v h1 h2 h3 =>
    intro m hm e
    obtain ⟨h, m', rfl, e'⟩ := first hm e (fun h => hyp h3 (by decide) h)
    have hh : h = s%"y" := by
      by_cases hh : h = []
      · subst hh
        rw [flat_bare] at e'
        exfalso
        cases m' with
        | nil => cases e'
        | cons a m' =>
          obtain ⟨x', h'⟩ := a
          obtain ⟨v', hv'⟩ := flat_head (x := x') (h := h') (l := m')
          rw [hv'] at e'
          cases e'
          exact rafsi_not_hyphen (hm (s%"y", h') (by simp)).1 (show Hyphen s%"y" by decide)
      · rw [flat_hyphen hh] at e'
        cases e'; rfl
    subst hh
    exact .y (kind_cvc_iff.2 (pattern_cvc.1 h1)) h2 (kind_cvc_iff.2 (pattern_cvc.1 h3))
  | @more p q v h1 h2 h3 ih =>
    intro m hm e
    have hq : ¬ Hyphen q := by
      obtain ⟨p', v', e', hp'⟩ := falls_first h3
      cases e'
      exact fun h => hyp hp' (by decide) h
    obtain ⟨h, m', rfl, e'⟩ := first hm e hq
    exact .step (kind_cvc_iff.2 (pattern_cvc.1 h1)) h2 (ih (fun p hp => hm p (List.mem_cons_of_mem _ hp)) e')

theorem ext_tosm {y : YHyphens} {l : List (Str × Str)} (h : Tosm l) : ∀ {m : List (Str × Str)}, Ext y l m → Tosm m := by
  have first : ∀ {x h : Str} {l m : List (Str × Str)}, kindOf x ≠ .vv → Ext y ((x, h) :: l) m → ∃ m', m = (x, h) :: m' ∧ Ext y l m' := by
    intro x h l m hx hE
    cases hE with
    | same hE => exact ⟨_, rfl, hE⟩
    | extra _ hv => exact absurd hv hx
  induction h with
  | gismu h1 h2 h3 h4 =>
    intro m hE
    obtain ⟨m', rfl, hE'⟩ := first (by rw [h1]; simp) hE
    have hf := hE'.fst
    cases m' with
    | nil => cases hf
    | cons p m' =>
      obtain ⟨x, h⟩ := p
      simp at hf
      rw [← hf.1]
      exact .gismu h1 h2 h3 h4
  | y h1 h2 h3 =>
    intro m hE
    obtain ⟨m', rfl, hE'⟩ := first (by rw [h1]; simp) hE
    obtain ⟨m'', rfl, -⟩ := first (by rw [h3]; simp) hE'
    exact .y h1 h2 h3
  | step h1 h2 h3 ih =>
    intro m hE
    obtain ⟨m', rfl, hE'⟩ := first (by rw [h1]; simp) hE
    have := ih hE'
    have hf := hE'.fst
    cases m' with
    | nil => cases hf
    | cons p m' =>
      obtain ⟨x, h⟩ := p
      simp at hf
      rw [hf.1] at h2
      exact .step h1 h2 this

theorem fit_needY {mz : Bool} {x x' : Str} (hx : Rafsi mz x) (hx' : Rafsi mz x') (hl : kindOf x ≠ .long) :
    Fit mz x x' ↔ ¬ NeedY mz x x' := (needY_iff hx hx' hl).symm

theorem between_long {y : YHyphens} {mz : Bool} {x h x' : Str} (hx : Rafsi mz x) (hb : Between y mz x h x') : kindOf x ≠ .long := by
  rw [← kind_length hx]
  have key : ∀ {q}, Link y mz x q → x.length < 5 := by
    intro q hq
    generalize hxe : x = x0 at hq
    cases hq with
    | rafsi h1 _ h => rcases h with h | h <;> omega
    | y _ h => exact h
    | apostropheY _ _ h => rcases h with h | h <;> omega
    | rOrN _ _ h =>
      obtain ⟨_, _, _, _, _, h | h⟩ := h <;> rw [h] <;> simp
    | afterY h => simp at h; rcases h with rfl | rfl <;> simp
    | afterR => simp
    | afterN => simp
  by_cases hh : h = []
  · exact key (hb.1 hh)
  · exact key (hb.2 hh).1

/-- No hyphen but the needed y, and r or n: what stands behind the first joint. -/
theorem ext_tail {y : YHyphens} {mz : Bool} : ∀ {m : List (Str × Str)}, (∀ p ∈ m, Rafsi mz p.1 ∧ Glue p.2) →
    (∃ u x, m = u ++ [(x, [])]) → Links y mz (flat m) →
    (∀ u p q v, flat m = u ++ p :: s%"y" :: q :: v → ¬ Fit mz p q) → s%"'y" ∉ flat m →
    ∃ l, Tail mz l ∧ Ext y l m ∧ ∀ p ∈ l.dropLast, kindOf p.1 ≠ .long := by
  intro m
  induction m with
  | nil => rintro _ ⟨u, x, e⟩; simp at e
  | cons a m ih =>
    obtain ⟨x, h⟩ := a
    rintro hm ⟨u, z, e⟩ hlk hy hn
    cases m with
    | nil =>
      cases u with
      | cons b u => simp at e
      | nil =>
        simp at e
        obtain ⟨rfl, rfl⟩ := e
        exact ⟨[(x, [])], .last, .same .nil, by simp⟩
    | cons a m =>
      obtain ⟨x', h'⟩ := a
      have hx : Rafsi mz x := (hm (x, h) (by simp)).1
      have hx' : Rafsi mz x' := (hm (x', h') (by simp)).1
      have hg : Glue h := (hm (x, h) (by simp)).2
      have hfl : flat ((x, h) :: (x', h') :: m) = piecesOf (x, h) ++ flat ((x', h') :: m) := rfl
      obtain ⟨l, hT, hE, hlong⟩ := ih (fun p hp => hm p (List.mem_cons_of_mem _ hp)) (by
        cases u with
        | nil => simp at e
        | cons b u => simp at e; exact ⟨u, z, by simp [e.2]⟩) (links_flat.1 hlk).2 (by
        intro u p q v e
        exact hy (piecesOf (x, h) ++ u) p q v (by rw [hfl, e]; simp)) (by
        intro hmem
        exact hn (by rw [hfl]; exact List.mem_append_right _ hmem))
      obtain ⟨v', hv'⟩ := flat_head (x := x') (h := h') (l := m)
      have hb := (links_flat.1 hlk).1
      have hlx : kindOf x ≠ .long := between_long hx hb
      cases l with
      | nil => cases hT
      | cons b l =>
        obtain ⟨x1, h1⟩ := b
        have hx1 : x1 = x' := by have := hE.fst; simp at this; exact this.1
        subst hx1
        have hlong' : ∀ {hh : Str}, ∀ p ∈ ((x, hh) :: (x1, h1) :: l).dropLast, kindOf p.1 ≠ .long := by
          intro hh p hp
          rw [List.dropLast_cons_of_ne_nil (by simp)] at hp
          rcases List.mem_cons.1 hp with rfl | hp
          · exact hlx
          · exact hlong p hp
        have same : lateHyphen mz x x1 = h → ∃ l, Tail mz l ∧ Ext y l ((x, h) :: (x1, h') :: m) ∧ ∀ p ∈ l.dropLast, kindOf p.1 ≠ .long := by
          intro hh
          refine ⟨(x, h) :: (x1, h1) :: l, ?_, .same hE, hlong'⟩
          rw [← hh]
          exact .more hT
        have vowelFit : kindOf x = .vv → lateHyphen mz x x1 = [] := by
          intro hk
          unfold lateHyphen
          rw [if_neg]
          intro hN
          rcases needY_kind hN with h | h <;> rw [hk] at h <;> cases h
        rcases hg with rfl | rfl | rfl | hrn
        · refine same ?_
          have hlk := hb.1 rfl
          unfold lateHyphen
          rw [if_neg]
          rw [← fit_needY hx hx' hlx]
          generalize hxe : x1 = x2 at hlk
          cases hlk with
          | rafsi _ _ h1 h2 h3 => exact ⟨h1, h2, h3⟩
          | y => exact absurd (show Hyphen s%"y" by decide) (hxe ▸ rafsi_not_hyphen hx')
          | apostropheY => exact absurd (show Hyphen s%"'y" by decide) (hxe ▸ rafsi_not_hyphen hx')
          | rOrN _ _ _ h =>
            exact absurd (rn_hyphen (by simpa using h)) (hxe ▸ rafsi_not_hyphen hx')
          | afterY h => exact absurd (by simp at h; rcases h with rfl | rfl <;> decide) (rafsi_not_hyphen hx)
          | afterR => exact absurd (by decide) (rafsi_not_hyphen hx)
          | afterN => exact absurd (by decide) (rafsi_not_hyphen hx)
        · refine same ?_
          have := hy [] x x1 v' (by rw [flat_hyphen (by simp), hv']; rfl)
          rw [fit_needY hx hx' hlx, Classical.not_not] at this
          unfold lateHyphen
          rw [if_pos this]
        · exact absurd (by rw [mem_flat]; exact ⟨(x, s%"'y"), by simp, .inr ⟨by simp, rfl⟩⟩) hn
        · have hne : h ≠ [] := by rcases hrn with rfl | rfl <;> simp
          obtain ⟨hl1, hl2⟩ := hb.2 hne
          have hvr : y ≠ .forceY ∧ VowelRafsi x := by
            generalize hhe : h = h0 at hl1
            cases hl1 with
            | rafsi _ h => exact absurd (rn_hyphen hrn) (hhe ▸ rafsi_not_hyphen h)
            | y => rcases hrn with h | h <;> rw [h] at hhe <;> cases hhe
            | apostropheY => rcases hrn with h | h <;> rw [h] at hhe <;> cases hhe
            | rOrN h1 _ h2 => exact ⟨h1, h2⟩
            | afterY _ h => exact absurd (rn_hyphen hrn) (hhe ▸ rafsi_not_hyphen h)
            | afterR => exact absurd (by decide) (rafsi_not_hyphen hx)
            | afterN => exact absurd (by decide) (rafsi_not_hyphen hx)
          have hk := (kind_vowelRafsi hx).1 hvr.2
          have hhe : h = if x1.head? = some 'r' then s%"n" else s%"r" := by
            generalize hh0 : h = h0 at hl2
            cases hl2 with
            | rafsi h => exact absurd (rn_hyphen hrn) (hh0 ▸ rafsi_not_hyphen h)
            | y h => exact absurd (rn_hyphen hrn) (hh0 ▸ rafsi_not_hyphen h)
            | apostropheY _ h => exact absurd (rn_hyphen hrn) (hh0 ▸ rafsi_not_hyphen h)
            | rOrN _ h => exact absurd (rn_hyphen hrn) (hh0 ▸ rafsi_not_hyphen h)
            | afterY h => rcases hrn with h' | h' <;> rw [← hh0, h'] at h <;> simp at h
            | afterR _ h => rw [if_neg h]
            | afterN _ h => rw [if_pos h]
          refine ⟨(x, []) :: (x1, h1) :: l, ?_, ?_, hlong'⟩
          · have := Tail.more (x := x) hT
            rwa [vowelFit hk] at this
          · rw [hhe]
            exact .extra hvr.1 hk hE

theorem flat_split {mz : Bool} : ∀ {m : List (Str × Str)}, (∀ p ∈ m, Rafsi mz p.1 ∧ Glue p.2) → ∀ {u v : List Str} {p h q : Str},
    flat m = u ++ p :: h :: q :: v → Hyphen h →
    ∃ m1 k m2, m = m1 ++ (p, h) :: (q, k) :: m2 ∧ u = flat m1 ∧ q :: v = flat ((q, k) :: m2) := by
  intro m
  induction m with
  | nil => intro _ u v p h q e; simp [flat] at e
  | cons a m ih =>
    obtain ⟨x, k⟩ := a
    intro hm u v p h q e hh
    have notHead : ∀ {v}, flat m ≠ h :: v := by
      intro v e
      cases m with
      | nil => cases e
      | cons b m =>
        obtain ⟨x', h'⟩ := b
        obtain ⟨v', hv'⟩ := flat_head (x := x') (h := h') (l := m)
        rw [hv'] at e
        have := (List.cons.inj e).1
        subst this
        exact rafsi_not_hyphen (hm (x', h') (by simp)).1 hh
    have ih := @ih (fun p hp => hm p (List.mem_cons_of_mem _ hp))
    by_cases hk : k = []
    · subst hk
      rw [flat_bare] at e
      cases u with
      | nil => exact absurd (List.cons.inj e).2 notHead
      | cons a u =>
        obtain ⟨rfl, e1⟩ := List.cons.inj e
        obtain ⟨m1, k, m2, h1, h2, h3⟩ := ih e1 hh
        exact ⟨(x, []) :: m1, k, m2, by rw [h1]; rfl, by rw [h2]; rfl, h3⟩
    · rw [flat_hyphen hk] at e
      cases u with
      | nil =>
        obtain ⟨rfl, e1⟩ := List.cons.inj e
        obtain ⟨rfl, e2⟩ := List.cons.inj e1
        cases m with
        | nil => cases e2
        | cons b m =>
          obtain ⟨x', h'⟩ := b
          obtain ⟨v', hv'⟩ := flat_head (x := x') (h := h') (l := m)
          have e3 := e2
          rw [hv'] at e3
          have := (List.cons.inj e3).1
          subst this
          exact ⟨[], h', m, rfl, rfl, e2.symm⟩
      | cons a u =>
        obtain ⟨rfl, e1⟩ := List.cons.inj e
        cases u with
        | nil => exact absurd (List.cons.inj e1).2 notHead
        | cons a u =>
          obtain ⟨rfl, e2⟩ := List.cons.inj e1
          obtain ⟨m1, k', m2, h1, h2, h3⟩ := ih e2 hh
          exact ⟨(x, k) :: m1, k', m2, by rw [h1]; rfl, by rw [flat_hyphen hk, h2], h3⟩

theorem ext_split {y : YHyphens} {p h : Str} (hh : h = s%"y" ∨ h = s%"'y") : ∀ {m1 m2 l : List (Str × Str)}, Ext y l (m1 ++ (p, h) :: m2) →
    ∃ l1 l2, l = l1 ++ (p, h) :: l2 ∧ (l1 = [] ↔ m1 = []) ∧ Ext y l2 m2 := by
  have hrn : ∀ {c : Prop} [Decidable c], h ≠ if c then s%"n" else s%"r" := by
    intro c _ e
    split at e <;> rcases hh with rfl | rfl <;> simp at e
  intro m1
  induction m1 with
  | nil =>
    intro m2 l hE
    generalize hm : ([] ++ (p, h) :: m2) = m at hE
    cases hE with
    | nil => simp at hm
    | same hE =>
      obtain ⟨rfl, rfl⟩ := List.cons.inj hm
      exact ⟨[], _, rfl, by simp, hE⟩
    | extra =>
      obtain ⟨e, -⟩ := List.cons.inj hm
      exact absurd (Prod.mk.inj e).2 hrn
  | cons a m1 ih =>
    intro m2 l hE
    generalize hm : (a :: m1 ++ (p, h) :: m2) = m at hE
    cases hE with
    | nil => simp at hm
    | same hE =>
      obtain ⟨rfl, rfl⟩ := List.cons.inj hm
      obtain ⟨l1, l2, rfl, -, h⟩ := ih hE
      exact ⟨_ :: l1, l2, rfl, by simp, h⟩
    | @extra _ _ _ _ l0 m0 _ _ hE =>
      obtain ⟨rfl, e⟩ := List.cons.inj hm
      rw [← e] at hE
      obtain ⟨l1, l2, e, -, h⟩ := ih hE
      exact ⟨_ :: l1, l2, by rw [e]; rfl, by simp, h⟩

theorem ext_bare {y : YHyphens} {x : Str} {l m : List (Str × Str)} (hE : Ext y l ((x, []) :: m)) : ∃ l', l = (x, []) :: l' ∧ Ext y l' m := by
  generalize hm : (x, ([] : Str)) :: m = m0 at hE
  cases hE with
  | nil => cases hm
  | same hE =>
    obtain ⟨rfl, rfl⟩ := List.cons.inj hm
    exact ⟨_, rfl, hE⟩
  | extra =>
    have := (Prod.mk.inj (List.cons.inj hm).1).2
    split at this <;> cases this

theorem ext_single {y : YHyphens} {x : Str} {m : List (Str × Str)} (hE : Ext y [(x, [])] m) : m = [(x, [])] := by
  generalize hm : [(x, ([] : Str))] = l at hE
  cases hE with
  | nil => cases hm
  | same hE =>
    obtain ⟨rfl, rfl⟩ := List.cons.inj hm
    cases hE
    rfl
  | extra => simp at hm

theorem tail_split {mz : Bool} {p h q k : Str} : ∀ {l1 l2 : List (Str × Str)}, Tail mz (l1 ++ (p, h) :: (q, k) :: l2) → h = lateHyphen mz p q := by
  intro l1
  induction l1 with
  | nil =>
    intro l2 hT
    generalize hm : ([] ++ (p, h) :: (q, k) :: l2) = m at hT
    cases hT with
    | last => simp at hm
    | more =>
      simp only [List.nil_append, List.cons.injEq, Prod.mk.injEq] at hm
      obtain ⟨⟨rfl, rfl⟩, ⟨rfl, -⟩, -⟩ := hm
      rfl
  | cons a l1 ih =>
    intro l2 hT
    generalize hm : (a :: l1 ++ (p, h) :: (q, k) :: l2) = m at hT
    cases hT with
    | last => simp at hm
    | more hT =>
      have := (List.cons.inj hm).2
      rw [← this] at hT
      exact ih hT

/-- A y or 'y of the canonical word. -/
theorem canon_split {s : Settings} {g : Bool} {p h q k : Str} {l1 l2 : List (Str × Str)} (hC : Canon s g (l1 ++ (p, h) :: (q, k) :: l2)) :
    (l1 = [] ∧ h = firstHyphen s g p q k l2) ∨ (l1 ≠ [] ∧ h = lateHyphen s.allowMz p q) := by
  generalize hm : (l1 ++ (p, h) :: (q, k) :: l2) = m at hC
  cases hC with
  | mk hT =>
    cases l1 with
    | nil =>
      simp only [List.nil_append, List.cons.injEq, Prod.mk.injEq] at hm
      obtain ⟨⟨rfl, rfl⟩, ⟨rfl, rfl⟩, rfl⟩ := hm
      exact .inl ⟨rfl, rfl⟩
    | cons a l1 =>
      have := (List.cons.inj hm).2
      rw [← this] at hT
      exact .inr ⟨by simp, tail_split hT⟩

theorem ext_hyphen_of_same {y : YHyphens} {l m : List (Str × Str)} {p : Str × Str} (h : Ext y l m) (hp : p ∈ l) (hn : p.2 ≠ []) : p ∈ m := by
  induction h with
  | nil => cases hp
  | same _ ih =>
    rcases List.mem_cons.1 hp with rfl | hp
    · simp
    · exact List.mem_cons_of_mem _ (ih hp)
  | extra _ _ _ ih =>
    rcases List.mem_cons.1 hp with rfl | hp
    · exact absurd rfl hn
    · exact List.mem_cons_of_mem _ (ih hp)

theorem ext_rafsi {y : YHyphens} {mz : Bool} {s : Settings} {g : Bool} {l m : List (Str × Str)} (hE : Ext y l m) (hC : Canon s g l)
    (hr : ∀ p ∈ l, Rafsi mz p.1) : ∀ p ∈ m, Rafsi mz p.1 ∧ Glue p.2 := by
  intro p hp
  have : p.1 ∈ l.map Prod.fst := by rw [hE.fst]; exact List.mem_map.2 ⟨p, hp, rfl⟩
  obtain ⟨q, hq, e⟩ := List.mem_map.1 this
  exact ⟨e ▸ hr q hq, hE.glue (canon_glue hC) p hp⟩

theorem made_two {s : Settings} {g : Bool} {l m : List (Str × Str)} (h : Made s g l) (hE : Ext s.yHyphens l m) : 2 ≤ (flat m).length := by
  have hf := hE.fst
  cases h.canon with
  | mk =>
    match m, hf with
    | a :: b :: m, _ =>
      have : ∀ {a : Str × Str}, 1 ≤ (piecesOf a).length := by
        intro a; unfold piecesOf; split <;> simp
      rw [flat_cons, flat_cons, List.length_append, List.length_append]
      have h1 := @this a
      have h2 := @this b
      omega

theorem made_last {s : Settings} {g : Bool} {l m : List (Str × Str)} (h : Made s g l) (hE : Ext s.yHyphens l m) :
    (spell m).getLast? = (spell l).getLast? := by
  obtain ⟨u, x, e⟩ := canon_end h.canon
  obtain ⟨u', x', e'⟩ := ext_end hE ⟨u, x, e⟩
  have hf := hE.fst
  subst e e'
  have hx : x = x' := by simpa using congrArg List.getLast? hf
  subst hx
  have hne : x ≠ [] := rafsi_ne (h.rafsi (x, []) (by simp))
  simp only [spell, List.map_append, List.flatten_append, List.map_cons, List.map_nil, List.flatten_cons, List.flatten_nil, List.append_nil]
  rw [List.getLast?_append, List.getLast?_append]
  cases hx : x.getLast? with
  | none => simp at hx; exact absurd hx hne
  | some c => simp

/-- What `jvokaha` accepts as a lujvo meets the specification. -/
theorem made_lujvoPieces {s : Settings} {l m : List (Str × Str)} (h : Made s false l) (ha : Apt s false l) (hE : Ext s.yHyphens l m)
    (hd : ∀ p ∈ l, Diph p.1) : LujvoPieces s (flat m) := by
  have hm := ext_rafsi hE h.canon h.rafsi
  refine ⟨ext_reading h hE hd, made_two h hE, ?_, ?_, ?_, ?_, ?_, ?_⟩
  · obtain ⟨c, hc, hv⟩ := ha.ends
    exact ⟨c, by rw [flat_spell, made_last h hE, hc], by simpa using hv⟩
  · intro p q v e hp hq
    match m, hE, hm, e with
    | (x, k) :: m, hE, hm, e =>
      by_cases hk : k = []
      · subst hk
        rw [flat_bare] at e
        obtain ⟨rfl, e0⟩ := List.cons.inj e
        match m, hE, hm, e0 with
        | (x', k') :: m, hE, hm, e =>
          obtain ⟨v', hv'⟩ := flat_head (x := x') (h := k') (l := m)
          have e' := e
          rw [hv'] at e'
          have := (List.cons.inj e').1
          subst this
          obtain ⟨l0, rfl, hE0⟩ := ext_bare hE
          obtain ⟨hC, hr, -⟩ := h
          generalize hl : (x, ([] : Str)) :: l0 = l1 at hC
          cases hC with
          | @mk y0 x1 h1 t hT =>
            simp only [List.cons.injEq, Prod.mk.injEq] at hl
            obtain ⟨⟨rfl, hh⟩, rfl⟩ := hl
            have hx := hr (x, []) (by simp)
            have hxx : x1 = x' := by have := hE0.fst; simp at this; exact this.1
            subst hxx
            have hk := (kind_vowelRafsi hx).1 hp
            have key : t = [] ∧ kindOf x1 = .ccv := by
              unfold firstHyphen at hh
              split at hh
              · cases hh
              · split at hh
                · split at hh
                  · cases hh
                  · split at hh <;> cases hh
                · rename_i h2
                  simp only [hk, true_and, Classical.not_not] at h2
                  exact h2
            obtain ⟨rfl, hcc⟩ := key
            have hk1 : h1 = [] := by
              generalize ht : [(x1, h1)] = t at hT
              cases hT with
              | last => simp at ht; exact ht.2
              | more => simp at ht
            subst hk1
            have : (x1, k') :: m = [(x1, [])] := ext_single hE0
            rw [this] at e
            simp [flat, piecesOf] at e
            exact ⟨e, pattern_ccv.2 (kind_ccv.1 hcc)⟩
      · rw [flat_hyphen hk] at e
        obtain ⟨rfl, e1⟩ := List.cons.inj e
        obtain ⟨rfl, e2⟩ := List.cons.inj e1
        exact absurd ((hm (x, k) (by simp)).2.hyphen hk) hq
  · intro u p q v e
    obtain ⟨m1, k, m2, rfl, rfl, e2⟩ := flat_split hm e (by decide)
    obtain ⟨l1, l2, rfl, h0, hE2⟩ := ext_split (.inl rfl) hE
    have hq : ∃ k' l3, l2 = (q, k') :: l3 := by
      have := hE2.fst
      match l2, this with
      | (a, b) :: l3, this => simp at this; rw [this.1]; exact ⟨_, _, rfl⟩
    obtain ⟨k', l3, rfl⟩ := hq
    have hp := h.rafsi (p, s%"y") (by simp)
    have hq := h.rafsi (q, k') (by simp)
    have hlong := h.long (p, s%"y") (by rw [List.dropLast_append_of_ne_nil (by simp)]; simp)
    rw [fit_needY hp hq hlong, Classical.not_not]
    rcases canon_split h.canon with ⟨rfl, hh⟩ | ⟨-, hh⟩
    · unfold firstHyphen at hh
      split at hh
      · exact .inl ‹_›
      · split at hh
        · split at hh
          · cases hh
          · split at hh <;> cases hh
        · split at hh
          · rename_i h3
            refine .inr ⟨by rw [h0.1 rfl]; rfl, ?_⟩
            have := tosm_falls (ext_tosm h3.2 (.same hE2))
            rw [flat_bare, ← e2] at this
            exact this
          · cases hh
    · exact .inl (lateHyphen_y hh.symm)
  · intro u p q v e
    obtain ⟨m1, k, m2, rfl, rfl, e2⟩ := flat_split hm e (by decide)
    obtain ⟨l1, l2, rfl, h0, hE2⟩ := ext_split (.inr rfl) hE
    have hq : ∃ k' l3, l2 = (q, k') :: l3 := by
      have := hE2.fst
      match l2, this with
      | (a, b) :: l3, this => simp at this; rw [this.1]; exact ⟨_, _, rfl⟩
    obtain ⟨k', l3, rfl⟩ := hq
    have hp := h.rafsi (p, s%"'y") (by simp)
    rcases canon_split h.canon with ⟨rfl, hh⟩ | ⟨-, hh⟩
    · unfold firstHyphen at hh
      split at hh
      · cases hh
      · split at hh
        · rename_i h2
          split at hh
          · rename_i h3
            refine ⟨h3, by rw [h0.1 rfl]; rfl, (kind_vowelRafsi hp).2 h2.1, ?_⟩
            rintro ⟨rfl, hc⟩
            have e3 : [q] = flat ((q, k) :: m2) := e2
            have hm2 : m2 = [] := by
              cases m2 with
              | nil => rfl
              | cons a m2 =>
                have h1 : ∀ {a : Str × Str}, 1 ≤ (piecesOf a).length := by
                  intro a; unfold piecesOf; split <;> simp
                have h2 := congrArg List.length e3
                rw [flat_cons, flat_cons, List.length_append, List.length_append] at h2
                have h3 := @h1 (q, k)
                have h4 := @h1 a
                simp at h2
                omega
            subst hm2
            have hl3 : l3 = [] := by have := hE2.fst; simpa using this
            exact h2.2.2 ⟨hl3, kind_ccv.2 (pattern_ccv.1 hc)⟩
          · split at hh <;> cases hh
        · split at hh <;> cases hh
    · rcases late_cases s.allowMz p q with h | ⟨h, -⟩ <;> rw [h] at hh <;> cases hh
  · intro hf
    have hT := tosm_ext (falls_tosm hf hm rfl) hE
    obtain ⟨hC, -, -⟩ := h
    cases hC with
    | @mk x x' h' t hT' =>
      have hk : kindOf x = .cvc ∧ firstHyphen s false x x' h' t = [] := by
        generalize hhe : firstHyphen s false x x' h' t = hh at hT ⊢
        generalize hl : (x, hh) :: (x', h') :: t = l0 at hT
        cases hT <;> simp only [List.cons.injEq, Prod.mk.injEq] at hl <;> exact ⟨by rw [hl.1.1]; assumption, hl.1.2⟩
      refine first_empty hk.1 hk.2 ?_
      rwa [hk.2] at hT
  · intro hcl
    rcases ha.enough hcl with ⟨p, hp, hk⟩ | ⟨x, hh, t, rfl, hrn⟩
    · refine ⟨p.1, ?_, .inr (.inr ⟨rafsi_not_hyphen (h.rafsi p hp), fun hv => hk ((kind_vowelRafsi (h.rafsi p hp)).1 hv)⟩)⟩
      have : p.1 ∈ m.map Prod.fst := by rw [← hE.fst]; exact List.mem_map.2 ⟨p, hp, rfl⟩
      obtain ⟨q, hq, e⟩ := List.mem_map.1 this
      exact mem_flat.2 ⟨q, hq, .inl e.symm⟩
    · have hne : hh ≠ [] := by rcases hrn with rfl | rfl <;> simp
      have := ext_hyphen_of_same hE (p := (x, hh)) (by simp) hne
      refine ⟨hh, mem_flat.2 ⟨_, this, .inr ⟨hne, rfl⟩⟩, ?_⟩
      rcases hrn with h | h <;> simp [h]

end Jvotci
