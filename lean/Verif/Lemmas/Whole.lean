import Verif.Lemmas.Flat

/-!
# Helper lemmas: the pieces `jvokaha` accepts
-/

namespace Jvotci

open Spec

theorem chop_rn {y : YHyphens} {mz : Bool} {prev : Option Str} {o : Str} {rest : List Str} (h : Chop y mz prev (o :: rest))
    (ho : o = s%"r" ∨ o = s%"n") : ∃ p, prev = some p ∧ p.length ≠ 1 ∧ y ≠ .forceY ∧ (rafsiTarmi p = .cvv ∨ rafsiTarmi p = .cvhv) ∧
      Chop y mz (some o) rest ∧ ((o = s%"n" ∧ ∃ t, join rest = 'r' :: t) ∨ (o = s%"r" ∧ ∃ c t, join rest = c :: t ∧ c ≠ 'r')) := by
  cases h with
  | y => simp at ho
  | hy => simp at ho
  | n h1 h2 h3 h4 h5 => exact ⟨_, rfl, h1, h2, h3, h5, .inl ⟨rfl, _, h4⟩⟩
  | r h1 h2 h3 h4 _ h5 h6 => exact ⟨_, rfl, h1, h2, h3, h6, .inr ⟨rfl, _, _, h4, h5⟩⟩
  | rafsi hc =>
    have := rafsi_length hc.rafsi
    rcases ho with rfl | rfl <;> simp at this

theorem chop_glue {y : YHyphens} {mz : Bool} {prev : Option Str} {o : Str} {rest : List Str} (h : Chop y mz prev (o :: rest))
    (ho : Hyphen o) : (∃ p, prev = some p ∧ p.length ≠ 1) ∧ Chop y mz (some o) rest := by
  cases h with
  | y h1 h2 => exact ⟨⟨_, rfl, h1⟩, h2⟩
  | hy h1 _ h2 => exact ⟨⟨_, rfl, h1⟩, h2⟩
  | n h1 h2 h3 h4 h5 => exact ⟨⟨_, rfl, h1⟩, h5⟩
  | r h1 h2 h3 h4 _ h5 h6 => exact ⟨⟨_, rfl, h1⟩, h6⟩
  | rafsi hc => exact absurd ho (rafsi_not_hyphen hc.rafsi)

theorem chop_rafsi {y : YHyphens} {mz mz' : Bool} {prev : Option Str} {o : Str} {rest : List Str} (h : Chop y mz prev (o :: rest))
    (ho : Rafsi mz' o) : Chop y mz (some o) rest := by
  cases h with
  | y h1 h2 => exact absurd (show Hyphen s%"y" by decide) (rafsi_not_hyphen ho)
  | hy h1 _ h2 => exact absurd (show Hyphen s%"'y" by decide) (rafsi_not_hyphen ho)
  | n => exact absurd (show Hyphen s%"n" by decide) (rafsi_not_hyphen ho)
  | r => exact absurd (show Hyphen s%"r" by decide) (rafsi_not_hyphen ho)
  | rafsi _ h => exact h

theorem rn_hyphen {o : Str} (h : o = s%"r" ∨ o = s%"n") : Hyphen o := by
  rcases h with rfl | rfl <;> decide

theorem skips_ext {y : YHyphens} {mz : Bool} : ∀ {l : List (Str × Str)}, (∀ p ∈ l, Rafsi mz p.1 ∧ Glue p.2) →
    (∃ u x, l = u ++ [(x, [])]) → ∀ {prev : Option Str} {arr : List Str}, Skips (flat l) arr →
    (∀ o r, arr = o :: r → ¬ (o = s%"r" ∨ o = s%"n")) → Chop y mz prev arr → ∃ m, arr = flat m ∧ Ext y l m := by
  intro l
  induction l with
  | nil => rintro - ⟨u, x, e⟩; simp at e
  | cons p l ih =>
    obtain ⟨x, h⟩ := p
    rintro hr ⟨u, z, e⟩ prev arr hs hh hc
    have hx : Rafsi mz x := (hr (x, h) (by simp)).1
    have hg : Glue h := (hr (x, h) (by simp)).2
    have hr' : ∀ p ∈ l, Rafsi mz p.1 ∧ Glue p.2 := fun p hp => hr p (List.mem_cons_of_mem _ hp)
    cases l with
    | nil =>
      cases u with
      | cons a u => simp at e
      | nil =>
        simp at e
        obtain ⟨rfl, rfl⟩ := e
        rw [flat_bare, flat_nil] at hs
        cases hs with
        | same hs => cases hs; exact ⟨[(x, [])], rfl, .same .nil⟩
        | skip ho hs => exact absurd ho (hh _ _ rfl)
    | cons q l =>
      obtain ⟨x', h'⟩ := q
      have hx' : Rafsi mz x' := (hr (x', h') (by simp)).1
      have hend : ∃ u x, (x', h') :: l = u ++ [(x, [])] := by
        cases u with
        | nil => simp at e
        | cons a u => simp at e; exact ⟨u, z, e.2⟩
      obtain ⟨v', hv'⟩ := flat_head (x := x') (h := h') (l := l)
      have ih := fun {prev arr} => @ih hr' hend prev arr
      by_cases h0 : h = []
      · subst h0
        rw [flat_bare] at hs
        cases hs with
        | skip ho => exact absurd ho (hh _ _ rfl)
        | @same _ _ r hs =>
          have hc' := chop_rafsi hc hx
          have hs0 := hs
          rw [hv'] at hs
          generalize hxe : x' = x'' at hs
          cases hs with
          | @same _ _ r' hs' =>
            subst hxe
            obtain ⟨m, e1, e2⟩ := ih hs0 (fun o r e => by
              cases e; intro ho; exact absurd (rn_hyphen ho) (rafsi_not_hyphen hx')) hc'
            refine ⟨(x, []) :: m, by rw [flat_bare, e1], .same e2⟩
          | @skip o _ _ r' ho hs' =>
            subst hxe
            obtain ⟨p, hp, -, hy, ht, hc'', hj⟩ := chop_rn hc' ho
            cases hp
            have hs1 : Skips (flat ((x', h') :: l)) (x' :: r') := by rw [hv']; exact .same hs'
            obtain ⟨m, e1, e2⟩ := ih hs1 (fun o r e => by
              cases e; intro ho; exact absurd (rn_hyphen ho) (rafsi_not_hyphen hx')) hc''
            have hoe : o = if x'.head? = some 'r' then s%"n" else s%"r" := by
              have hjh : (join (x' :: r')).head? = x'.head? := head_append (rafsi_ne hx') _
              rcases hj with ⟨rfl, t, hj⟩ | ⟨rfl, c, t, hj, hne⟩
              · rw [hj] at hjh; rw [if_pos (c := x'.head? = some 'r') hjh.symm]
              · rw [hj] at hjh
                rw [if_neg]
                rw [← hjh]; simpa using hne
            have hvv := kind_vv.2 ht
            subst hoe
            cases m with
            | nil => simp [flat] at e1
            | cons q m =>
              obtain ⟨x2, h2⟩ := q
              obtain ⟨v2, hv2⟩ := flat_head (x := x2) (h := h2) (l := m)
              rw [hv2] at e1
              have e3 : x' = x2 := by simp at e1; exact e1.1
              subst e3
              refine ⟨(x, if x'.head? = some 'r' then s%"n" else s%"r") :: (x', h2) :: m, ?_, .extra hy hvv e2⟩
              rw [flat_hyphen (by split <;> simp), hv2, e1]
      · rw [flat_hyphen h0] at hs
        have hhy : Hyphen h := hg.hyphen h0
        cases hs with
        | skip ho => exact absurd ho (hh _ _ rfl)
        | @same _ _ r hs =>
          have hc' := chop_rafsi hc hx
          cases hs with
          | @skip o _ _ r' ho hs' =>
            exfalso
            obtain ⟨p, hp, -, -, -, hc'', -⟩ := chop_rn hc' ho
            obtain ⟨⟨p, hp, hl⟩, -⟩ := chop_glue hc'' hhy
            cases hp
            rcases ho with rfl | rfl <;> exact hl rfl
          | @same _ _ r' hs' =>
            obtain ⟨-, hc''⟩ := chop_glue hc' hhy
            obtain ⟨m, e1, e2⟩ := ih hs' (fun o r e => by
              subst e
              intro ho
              obtain ⟨p, hp, hl, -, ht, -⟩ := chop_rn hc'' ho
              cases hp
              rcases hg with h | rfl | rfl | rfl | rfl
              · exact h0 h
              all_goals revert ht; decide) hc''
            exact ⟨(x, h) :: m, by rw [flat_hyphen h0, e1], .same e2⟩

/-! ## Comparing -/

theorem compare_same {other corr : List Str} {pre : List Str} {p : Str} {rest : List Str} (h : other = pre ++ p :: rest) :
    comparePiecesLoop other (p :: corr) pre.length = comparePiecesLoop other corr (pre ++ [p]).length := by
  have hg : other[pre.length]? = some p := by rw [h]; simp
  rw [comparePiecesLoop, hg]
  simp

theorem compare_extra {other corr : List Str} {pre : List Str} {x o p : Str} {rest : List Str} (h : other = pre ++ x :: o :: p :: rest)
    (ho : o = s%"r" ∨ o = s%"n") (hx : kindOf x = .vv) (hp : p ≠ o)
    (hn : pre = [] → rafsiTarmi p = .ccvcv ∨ rafsiTarmi p = .ccvc ∨ rafsiTarmi p = .ccv) :
    comparePiecesLoop other (p :: corr) (pre ++ [x]).length = comparePiecesLoop other corr (pre ++ [x, o, p]).length := by
  have h0 : other[pre.length]? = some x := by rw [h]; simp
  have h1 : other[pre.length + 1]? = some o := by rw [h]; simp
  have h2 : other[pre.length + 1 + 1]? = some p := by
    rw [h, Nat.add_assoc, List.getElem?_append_right (by omega), Nat.add_sub_cancel_left]; rfl
  have hl : pre.length + 1 + 1 < other.length := by rw [h]; simp; omega
  rw [comparePiecesLoop]
  rw [List.length_append, List.length_singleton, h1]
  simp only
  rw [if_neg hp]
  simp only [Nat.add_sub_cancel, h0, h2]
  have hv := kind_vv.1 hx
  rw [if_pos (c := _ = true)]
  · rw [h2]
    simp [Nat.add_assoc]
  · simp only [hl, decide_true, Bool.and_true, Bool.and_eq_true, Bool.or_eq_true, decide_eq_true_eq]
    refine ⟨⟨⟨by omega, ho⟩, hv⟩, ?_⟩
    cases pre with
    | nil =>
      right
      have := hn rfl
      grind
    | cons a pre => left; simp

/-- An r or n is missing at the first joint only before CCV, CCVC or CCVCV. -/
def FirstExtra (l m : List (Str × Str)) : Prop :=
  ∀ x h x' h' l' m', l = (x, []) :: l' → m = (x, h) :: (x', h') :: m' → h ≠ [] →
    rafsiTarmi x' = .ccvcv ∨ rafsiTarmi x' = .ccvc ∨ rafsiTarmi x' = .ccv

theorem compare_ext_aux {y : YHyphens} {mz : Bool} {l m : List (Str × Str)} (h : Ext y l m) : (∀ p ∈ l, Rafsi mz p.1) →
    (∃ u x, l = u ++ [(x, [])]) → ∀ {pre other : List Str}, other = pre ++ flat m → (pre = [] → FirstExtra l m) →
    ∀ {x h1 h2 : Str} {l' m' : List (Str × Str)}, l = (x, h1) :: l' → m = (x, h2) :: m' →
    comparePiecesLoop other ((piecesOf (x, h1)).tail ++ flat l') (pre ++ [x]).length = .ok true := by
  induction h with
  | nil => intro _ _ pre other _ _ x h1 h2 l' m' e; cases e
  | @same p l m hE ih =>
    rintro hr ⟨u, z, e⟩ pre other ho hf x h1 h2 l' m' e1 e2
    cases e1; cases e2
    cases hE with
    | nil =>
      cases u with
      | cons a u => simp at e
      | nil =>
        simp at e
        obtain ⟨rfl, rfl⟩ := e
        subst ho
        simp [piecesOf, flat, comparePiecesLoop]
    | same hE =>
      rename_i q l m
      obtain ⟨x', h'⟩ := q
      have hend : ∃ u x, (x', h') :: l = u ++ [(x, [])] := by
        cases u with
        | nil => simp at e
        | cons a u => simp at e; exact ⟨u, z, e.2⟩
      have ih := fun {pre other} => @ih (fun p hp => hr p (List.mem_cons_of_mem _ hp)) hend pre other
      by_cases h0 : h1 = []
      · subst h0
        have ho' : other = (pre ++ [x]) ++ flat ((x', h') :: m) := by rw [ho, flat_bare]; simp
        have := (ih ho' (by simp) rfl rfl)
        simp only [piecesOf, if_true, List.tail_cons, List.nil_append]
        have hfl : flat ((x', h') :: l) = x' :: ((piecesOf (x', h')).tail ++ flat l) := by
          rw [flat_cons]; unfold piecesOf; split <;> rfl
        obtain ⟨v, hv⟩ := flat_head (x := x') (h := h') (l := m)
        rw [hfl, compare_same (pre := pre ++ [x]) (by rw [ho', hv])]
        exact this
      · have ho' : other = (pre ++ [x, h1]) ++ flat ((x', h') :: m) := by rw [ho, flat_hyphen h0]; simp
        have := (ih ho' (by simp) rfl rfl)
        simp only [piecesOf, if_neg h0, List.tail_cons]
        have hfl : flat ((x', h') :: l) = x' :: ((piecesOf (x', h')).tail ++ flat l) := by
          rw [flat_cons]; unfold piecesOf; split <;> rfl
        obtain ⟨v, hv⟩ := flat_head (x := x') (h := h') (l := m)
        rw [hfl, List.singleton_append, compare_same (pre := pre ++ [x]) (rest := flat ((x', h') :: m)) (by rw [ho']; simp),
          show (pre ++ [x] ++ [h1]) = pre ++ [x, h1] by simp, compare_same (pre := pre ++ [x, h1]) (by rw [ho', hv])]
        exact this
    | extra hy hv hE =>
      rename_i x' x'' h h' l m
      generalize (if x''.head? = some 'r' then s%"n" else s%"r") = oo at *
      have hend : ∃ u x, (x', []) :: (x'', h) :: l = u ++ [(x, [])] := by
        cases u with
        | nil => simp at e
        | cons a u => simp at e; exact ⟨u, z, by simp [e.2]⟩
      have ih := fun {pre other} => @ih (fun p hp => hr p (List.mem_cons_of_mem _ hp)) hend pre other
      by_cases h0 : h1 = []
      · subst h0
        have ho' : other = (pre ++ [x]) ++ flat ((x', oo) :: (x'', h') :: m) := by rw [ho, flat_bare]; simp
        have := (ih ho' (by simp) rfl rfl)
        simp only [piecesOf, if_true, List.tail_cons, List.nil_append]
        have hfl : flat ((x', []) :: (x'', h) :: l) = x' :: ((piecesOf (x', [])).tail ++ flat ((x'', h) :: l)) := by
          rw [flat_cons]; unfold piecesOf; split <;> rfl
        obtain ⟨v, hv⟩ := flat_head (x := x') (h := oo) (l := (x'', h') :: m)
        rw [hfl, compare_same (pre := pre ++ [x]) (by rw [ho', hv])]
        exact this
      · have ho' : other = (pre ++ [x, h1]) ++ flat ((x', oo) :: (x'', h') :: m) := by rw [ho, flat_hyphen h0]; simp
        have := (ih ho' (by simp) rfl rfl)
        simp only [piecesOf, if_neg h0, List.tail_cons]
        have hfl : flat ((x', []) :: (x'', h) :: l) = x' :: ((piecesOf (x', [])).tail ++ flat ((x'', h) :: l)) := by
          rw [flat_cons]; unfold piecesOf; split <;> rfl
        obtain ⟨v, hv⟩ := flat_head (x := x') (h := oo) (l := (x'', h') :: m)
        rw [hfl, List.singleton_append, compare_same (pre := pre ++ [x]) (rest := flat ((x', oo) :: (x'', h') :: m)) (by rw [ho']; simp),
          show (pre ++ [x] ++ [h1]) = pre ++ [x, h1] by simp, compare_same (pre := pre ++ [x, h1]) (by rw [ho', hv])]
        exact this
  | @extra x0 x' h h' l m hy hvv hE ih =>
    rintro hr ⟨u, z, e⟩ pre other ho hf x h1 h2 l' m' e1 e2
    cases e1; cases e2
    have hend : ∃ u x, (x', h) :: l = u ++ [(x, [])] := by
      cases u with
      | nil => simp at e
      | cons a u => simp at e; exact ⟨u, z, by simp [e.2]⟩
    have ih := fun {pre other} => @ih (fun p hp => hr p (List.mem_cons_of_mem _ hp)) hend pre other
    have hx' : Rafsi mz x' := hr (x', h) (by simp)
    generalize hoe : (if x'.head? = some 'r' then s%"n" else s%"r") = o at *
    have horn : o = s%"r" ∨ o = s%"n" := by
      rw [← hoe]; split <;> simp
    have hon : o ≠ [] := by rcases horn with rfl | rfl <;> simp
    have ho' : other = (pre ++ [x0, o]) ++ flat ((x', h') :: m) := by rw [ho, flat_hyphen hon]; simp
    have := (ih ho' (by simp) rfl rfl)
    simp only [piecesOf, if_true, List.tail_cons, List.nil_append]
    have hfl : flat ((x', h) :: l) = x' :: ((piecesOf (x', h)).tail ++ flat l) := by
      rw [flat_cons]; unfold piecesOf; split <;> rfl
    obtain ⟨v, hv⟩ := flat_head (x := x') (h := h') (l := m)
    rw [hfl, compare_extra (pre := pre) (x := x0) (o := o) (rest := v) (by rw [ho', hv]; simp) horn hvv ?_ ?_]
    · rw [show pre ++ [x0, o, x'] = pre ++ [x0, o] ++ [x'] by simp]
      exact this
    · rintro rfl
      exact absurd (rn_hyphen horn) (rafsi_not_hyphen hx')
    · intro hp
      exact hf hp x0 o x' h' _ m rfl rfl hon

theorem compare_ext {y : YHyphens} {mz : Bool} {l m : List (Str × Str)} (h : Ext y l m) (hr : ∀ p ∈ l, Rafsi mz p.1)
    (hend : ∃ u x, l = u ++ [(x, [])]) (hf : FirstExtra l m) : compareLujvoPieces (flat l) (flat m) = .ok true := by
  unfold compareLujvoPieces
  have hl : ∃ x h1 h2 l' m', l = (x, h1) :: l' ∧ m = (x, h2) :: m' := by
    obtain ⟨u, x, e⟩ := hend
    cases h with
    | nil => simp at e
    | @same p l m => exact ⟨p.1, p.2, p.2, l, m, rfl, rfl⟩
    | extra => exact ⟨_, _, _, _, _, rfl, rfl⟩
  obtain ⟨x, h1, h2, l', m', e1, e2⟩ := hl
  have := (compare_ext_aux h hr hend (pre := []) (other := flat m) rfl (fun _ => hf) e1 e2)
  have hfl : flat l = x :: ((piecesOf (x, h1)).tail ++ flat l') := by
    rw [e1, flat_cons]; unfold piecesOf; split <;> rfl
  obtain ⟨v, hv⟩ := flat_head (x := x) (h := h2) (l := m')
  rw [hfl]
  have h0 := compare_same (other := flat m) (corr := (piecesOf (x, h1)).tail ++ flat l') (pre := []) (p := x) (rest := v) (by rw [e2, hv]; rfl)
  rw [List.length_nil] at h0
  rw [h0]
  exact this

theorem first_compare {y : YHyphens} {mz : Bool} {l m : List (Str × Str)} (h : Ext y l m) (hr : ∀ p ∈ l, Rafsi mz p.1)
    (hc : compareLujvoPieces (flat l) (flat m) = .ok true) : FirstExtra l m := by
  rintro x h x' h' l' m' rfl rfl h0
  cases h with
  | same => exact absurd rfl h0
  | @extra _ _ h1 _ l _ hy hv hE =>
    have hx' : Rafsi mz x' := hr (x', h1) (by simp)
    generalize hoe : (if x'.head? = some 'r' then s%"n" else s%"r") = o at *
    have horn : o = s%"r" ∨ o = s%"n" := by
      rw [← hoe]; split <;> simp
    obtain ⟨v, hv1⟩ := flat_head (x := x') (h := h') (l := m')
    obtain ⟨v', hv2⟩ := flat_head (x := x') (h := h1) (l := l)
    rw [flat_bare, flat_hyphen h0, hv1, hv2] at hc
    unfold compareLujvoPieces at hc
    rw [comparePiecesLoop] at hc
    simp only [List.getElem?_cons_zero, if_true] at hc
    rw [comparePiecesLoop] at hc
    have hne : x' ≠ o := by
      rintro rfl
      exact absurd (rn_hyphen horn) (rafsi_not_hyphen hx')
    simp only [List.getElem?_cons_succ, List.getElem?_cons_zero, if_neg hne, Nat.zero_add] at hc
    by_cases ht : rafsiTarmi x' = .ccvcv ∨ rafsiTarmi x' = .ccvc ∨ rafsiTarmi x' = .ccv
    · exact ht
    · exfalso
      rw [if_neg] at hc
      · simp [hne] at hc
      · simp; grind

theorem cuts_long {mz : Bool} {p rest : Str} (h : Cuts mz p rest) (hr : rest ≠ []) : kindOf p ≠ .long := by
  have hl := kind_five h.rafsi
  rw [Ne, ← hl]
  cases h with
  | gismu => exact absurd rfl hr
  | _ => simp

theorem cuts_diph {mz : Bool} {p rest : Str} (h : Cuts mz p rest) : Diph p := by
  intro c a b e ha hb
  cases h with
  | cvv _ _ _ hd => cases e; exact hd
  | cvhv => cases e
  | cvcc => cases e
  | ccvc => cases e
  | gismu hg => cases hg <;> cases e
  | cvc _ _ hc => cases e; rw [not_consonant_of_vowel ((isVowel_iff _).2 hb)] at hc; cases hc
  | ccv hi =>
    cases e
    have := (initial_cons hi).2
    rw [not_consonant_of_vowel ((isVowel_iff _).2 ha)] at this; cases this

theorem chop_diph {y : YHyphens} {mz : Bool} {prev : Option Str} {ps : List Str} (h : Chop y mz prev ps) : ∀ p ∈ ps, Diph p := by
  have small : ∀ {h : Str}, h.length < 3 → Diph h := by
    rintro h hl c a b rfl; simp at hl
  induction h with
  | nil => intro p hp; cases hp
  | y _ _ ih => intro p hp; rcases List.mem_cons.1 hp with rfl | hp; exact small (by decide); exact ih p hp
  | n _ _ _ _ _ ih => intro p hp; rcases List.mem_cons.1 hp with rfl | hp; exact small (by decide); exact ih p hp
  | r _ _ _ _ _ _ _ ih => intro p hp; rcases List.mem_cons.1 hp with rfl | hp; exact small (by decide); exact ih p hp
  | hy _ _ _ ih => intro p hp; rcases List.mem_cons.1 hp with rfl | hp; exact small (by decide); exact ih p hp
  | rafsi hc _ ih => intro p hp; rcases List.mem_cons.1 hp with rfl | hp; exact cuts_diph hc; exact ih p hp

theorem chop_long {y : YHyphens} {mz : Bool} {prev : Option Str} {ps : List Str} (h : Chop y mz prev ps) :
    ∀ p ∈ (ps.filter (fun x => x.length > 2)).dropLast, kindOf p ≠ .long := by
  induction h with
  | nil => intro p hp; cases hp
  | y _ _ ih => exact ih
  | n _ _ _ _ _ ih => exact ih
  | r _ _ _ _ _ _ _ ih => exact ih
  | hy _ _ _ ih => exact ih
  | @rafsi _ q ps hc hC ih =>
    intro p hp
    have hq := rafsi_length hc.rafsi
    rw [List.filter_cons, if_pos (by simp; omega)] at hp
    cases hf : ps.filter (fun x => x.length > 2) with
    | nil => rw [hf] at hp; cases hp
    | cons a f =>
      rw [hf] at hp ih
      rw [List.dropLast_cons_of_ne_nil (by simp)] at hp
      rcases List.mem_cons.1 hp with rfl | hp
      · refine cuts_long hc ?_
        intro e
        have ha : a ∈ ps := (List.mem_filter.1 (hf ▸ List.mem_cons_self : a ∈ ps.filter _)).1
        have hr := hC.filter a (hf ▸ List.mem_cons_self)
        have hjoin : join ps = ps.flatten := rfl
        rw [hjoin, List.flatten_eq_nil_iff] at e
        exact rafsi_ne hr (e a ha)
      · exact ih p hp

/-- The settings `jvokaha` uses. -/
def kahaSettings (y : YHyphens) (co : Consonants) (gl mz : Bool) : Settings :=
  { yHyphens := y, consonants := co, glides := gl, allowMz := mz }

/-- What `jvokaha` accepts: the canonical hyphens, perhaps with further r and n. -/
theorem jvokaha_canon {b : Build} {y : YHyphens} {co : Consonants} {gl mz : Bool} {w : Str} {arr : List Str}
    (h : jvokaha (program b) y co gl mz w = .ok arr) : ∃ c l m, w.getLast? = some c ∧ arr = flat m ∧ arr.flatten = w ∧
      Made (kahaSettings y co gl mz) (isConsonant c) l ∧ Apt (kahaSettings y co gl mz) (isConsonant c) l ∧
      Ext y l m ∧ FirstExtra l m ∧ ∀ p ∈ l, Diph p.1 := by
  obtain ⟨h1, h2, lastPiece, c, r, hl, hlc, hg, hcmp⟩ := jvokaha_ok h
  obtain ⟨hj, hC⟩ := jvokaha2_ok h1
  have hj' : arr.flatten = w := hj
  have hwc : w.getLast? = some c := by
    obtain ⟨u, rfl⟩ := List.getLast?_eq_some_iff.1 hl
    obtain ⟨u', rfl⟩ := List.getLast?_eq_some_iff.1 hlc
    rw [← hj']; simp
  have hlen : 2 ≤ (arr.filter (fun x => x.length > 2)).length := by
    cases arr with
    | nil => cases hl
    | cons p arr =>
      have hp := rafsi_length hC.head.1.rafsi
      rw [List.filter_cons, if_pos (by simp; omega)] at h2 ⊢
      rw [List.length_cons] at h2 ⊢
      omega
  obtain ⟨l, hcan, hfst⟩ := canon_exists (kahaSettings y co gl mz) (isConsonant c) hlen
  have hmade : Made (kahaSettings y co gl mz) (isConsonant c) l := by
    refine ⟨hcan, ?_, ?_⟩
    · intro p hp
      exact hC.filter p.1 (hfst ▸ List.mem_map.2 ⟨p, hp, rfl⟩)
    · intro p hp
      refine chop_long hC p.1 (hfst ▸ ?_)
      rw [← List.map_dropLast]
      exact List.mem_map.2 ⟨p, hp, rfl⟩
  have hd : ∀ p ∈ l, Diph p.1 := by
    intro p hp
    have : p.1 ∈ arr.filter (fun x => x.length > 2) := hfst ▸ List.mem_map.2 ⟨p, hp, rfl⟩
    exact chop_diph hC _ (List.mem_filter.1 this).1
  have hg' : getLujvoFromList (program b) (kahaSettings y co gl mz) (isConsonant c) ((l.map Prod.fst).map dash) = .ok r := by
    rw [hfst]; exact hg
  obtain ⟨hs, hapt⟩ := made_search hmade hg'
  have hread := C37_reading_found (ext_reading hmade (Ext.refl y l) hd)
  rw [flat_spell] at hread
  by_cases hy : y = .forceY
  · rw [if_pos hy, hs] at hcmp
    have : arr = flat l := by
      have e : jvokaha2 y mz w = .ok (flat l) := by rw [← hcmp]; exact hread
      rw [e] at h1; cases h1; rfl
    refine ⟨c, l, l, hwc, this, hj', hmade, hapt, Ext.refl y l, ?_, hd⟩
    rintro x h x' h' l' m' rfl e h0
    cases e; exact absurd rfl h0
  · rw [if_neg hy, hs] at hcmp
    obtain ⟨corr, hc1, hc2⟩ := hcmp
    have e : jvokaha2 y mz (spell l) = .ok (flat l) := hread
    rw [e] at hc1; cases hc1
    have hgl := canon_glue hmade.canon
    obtain ⟨m, em, hE⟩ := skips_ext (y := y) (mz := mz) (fun p hp => ⟨hmade.rafsi p hp, hgl p hp⟩) (canon_end hmade.canon)
      (compareLujvoPieces_ok hc2) (by
        rintro o r rfl ho
        exact absurd (rn_hyphen ho) (rafsi_not_hyphen hC.head.1.rafsi)) hC
    refine ⟨c, l, m, hwc, em, hj', hmade, hapt, hE, ?_, hd⟩
    rw [em] at hc2
    exact first_compare hE hmade.rafsi hc2

theorem ext_last {y : YHyphens} {l m : List (Str × Str)} (h : Ext y l m) (hend : ∃ u x, l = u ++ [(x, [])]) :
    (flat m).getLast? = (flat l).getLast? := by
  have hf := h.fst
  obtain ⟨u', x', e'⟩ := ext_end h hend
  obtain ⟨u, x, e⟩ := hend
  rw [flat_last e, flat_last e']
  rw [e, e'] at hf
  have := congrArg List.getLast? hf
  simpa using this.symm

/-- `jvokaha` accepts the canonical hyphens, with further r and n or without. -/
theorem jvokaha_accepts {b : Build} {y : YHyphens} {co : Consonants} {gl mz : Bool} {g : Bool} {l m : List (Str × Str)}
    (hmade : Made (kahaSettings y co gl mz) g l) (hapt : Apt (kahaSettings y co gl mz) g l) (hE : Ext y l m) (hf : FirstExtra l m)
    (hd : ∀ p ∈ l, Diph p.1) (hlen : letterCost (spell l) < 10 ^ 100)
    (hsl : g = false → b = .linked ∧ (program b).slinkuhi y mz (spell l) = .ok false) :
    jvokaha (program b) y co gl mz (spell m) = .ok (flat m) := by
  have hread := C37_reading_found (ext_reading hmade hE hd)
  rw [flat_spell] at hread
  have hread0 := C37_reading_found (ext_reading hmade (Ext.refl y l) hd)
  rw [flat_spell] at hread0
  obtain ⟨c, hc, hg⟩ := hapt.ends
  have hgc : isConsonant c = g := by
    cases g with
    | true => exact (isConsonant_iff c).2 (by simpa using hg)
    | false => exact not_consonant_of_vowel ((isVowel_iff c).2 (by simpa using hg))
  obtain ⟨u, x, hl⟩ := canon_end hmade.canon
  have hx : Rafsi mz x := hmade.rafsi (x, []) (by rw [hl]; simp)
  have hfl : (flat m).getLast? = some x := by rw [ext_last hE ⟨u, x, hl⟩, flat_last hl]
  have hxc : x.getLast? = some c := by
    rw [hl] at hc
    simp only [spell, List.map_append, List.flatten_append, List.map_cons, List.map_nil, List.append_nil, List.flatten_cons,
      List.flatten_nil] at hc
    rw [List.getLast?_append] at hc
    obtain ⟨c', h', -⟩ := rk_last (rafsi_rk hx)
    rw [h'] at hc ⊢
    simpa using hc
  have hfil : (flat m).filter (fun x => x.length > 2) = l.map Prod.fst := by
    rw [hE.fst]
    have hgl := hE.glue (canon_glue hmade.canon)
    refine flat_rafsi (mz := mz) fun p hp => ⟨?_, hgl p hp⟩
    exact made_xs hmade p.1 (by rw [hE.fst]; exact List.mem_map.2 ⟨p, hp, rfl⟩)
  obtain ⟨r, hr, hrs⟩ := made_found hmade hapt hlen hsl
  have hl2 : (l.map Prod.fst).length ≠ 1 := by
    cases hmade.canon
    simp
  unfold jvokaha
  rw [show jvokaha2 y mz (spell m) = .ok (flat m) from hread, ok_bind]
  dsimp only
  rw [hfil, List.length_map, if_neg hl2, hfl]
  dsimp only
  rw [show idxLast x = .ok c by simp [idxLast, hxc], ok_bind, hgc,
    show List.map (fun x => s%"-" ++ x ++ s%"-") (l.map Prod.fst) = (l.map Prod.fst).map dash from rfl,
    show getLujvoFromList (program b) { yHyphens := y, consonants := co, glides := gl, allowMz := mz } g ((l.map Prod.fst).map dash) = .ok r
      from hr]
  dsimp only
  rw [ok_bind, hrs]
  by_cases hy : y = .forceY
  · rw [if_pos hy, ok_bind, hE.forceY hy]
    simp
  · rw [if_neg hy, show jvokaha2 y mz (spell l) = .ok (flat l) from hread0, ok_bind,
      compare_ext hE hmade.rafsi (canon_end hmade.canon) hf, ok_bind]
    rfl

end Jvotci
