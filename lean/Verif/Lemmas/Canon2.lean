import Verif.Lemmas.Canon

/-!
# Helper lemmas: the canonical hyphens make a lujvo
-/

namespace Jvotci

open Spec

theorem tail_exists (mz : Bool) : ∀ {xs : List Str}, xs ≠ [] → ∃ l, Tail mz l ∧ l.map Prod.fst = xs := by
  intro xs
  induction xs with
  | nil => intro h; exact absurd rfl h
  | cons x xs ih =>
    intro _
    cases xs with
    | nil => exact ⟨_, .last, rfl⟩
    | cons x' xs =>
      obtain ⟨l, hl, e⟩ := ih (by simp)
      match l, e, hl with
      | (a, h') :: t, e, hl =>
        simp only [List.map_cons, List.cons.injEq] at e
        obtain ⟨rfl, rfl⟩ := e
        exact ⟨_, .more (x := x) hl, rfl⟩

theorem canon_exists (s : Settings) (g : Bool) {xs : List Str} (h : 2 ≤ xs.length) : ∃ l, Canon s g l ∧ l.map Prod.fst = xs := by
  match xs, h with
  | x :: x' :: xs, _ =>
    obtain ⟨l, hl, e⟩ := tail_exists s.allowMz (xs := x' :: xs) (by simp)
    match l, e, hl with
    | (a, h') :: t, e, hl =>
      simp only [List.map_cons, List.cons.injEq] at e
      obtain ⟨rfl, rfl⟩ := e
      exact ⟨_, .mk (x := x) hl, rfl⟩

/-- The slot for a rafsi and a hyphen. -/
def slotOf (p : Str × Str) : Slot := ⟨p.1, kindOf p.1, p.1 ++ p.2⟩

theorem tail_fits {mz : Bool} {l : List (Str × Str)} (h : Tail mz l) : (∀ p ∈ l, Rafsi mz p.1) →
    (∀ p ∈ l.dropLast, kindOf p.1 ≠ .long) → Fits false (l.map Prod.fst) (l.map slotOf) := by
  induction h with
  | @last x =>
    intro hr _
    have hx : Rafsi mz x := hr (x, []) (by simp)
    refine .cons rfl rfl ((written_rafsi hx).2 ⟨[], rfl, ?_⟩) .nil
    have := rk_last (rafsi_rk hx)
    have he := rafsi_kind hx
    show Trailing false true x (kindOf x) []
    cases hk : kindOf x <;> simp [Trailing]
    · obtain ⟨c, hc, h1, -⟩ := this
      exact ⟨c, hc, fun hv => vowel_not_consonant hv (h1 (.inr hk))⟩
  | @more x x' h' t hT ih =>
    intro hr hl
    have hx : Rafsi mz x := hr (x, lateHyphen mz x x') (by simp)
    refine .cons rfl rfl ((written_rafsi hx).2 ⟨_, rfl, ?_⟩) (ih (fun p hp => hr p (List.mem_cons_of_mem _ hp)) (fun p hp => hl p ?_))
    · have he := rafsi_kind hx
      have hlong := hl (x, lateHyphen mz x x') (by simp)
      show Trailing false false x (kindOf x) (lateHyphen mz x x')
      unfold lateHyphen
      split
      · rename_i hn
        rcases hn with hn | ⟨hn, -⟩ <;> rw [hn] <;> simp [Trailing]
      · rename_i hn
        cases hk : kindOf x <;> simp [Trailing]
        · exact hn (.inl hk)
        · exact hlong hk
        · exact he hk
    · simp only [List.dropLast_cons_cons]
      exact List.mem_cons_of_mem _ hp

theorem mem_y_banned {t : Str} : 'y' :: t ∉ bannedTriples := by
  simp [bannedTriples]

theorem vowel_banned {c : Char} {t : Str} (h : Vowel c) : c :: t ∉ bannedTriples := by
  intro hm
  have : c = 'n' := by simp [bannedTriples] at hm; rcases hm with h | h | h | h <;> exact h.1
  subst this
  revert h; decide

theorem joint_mk {mz : Bool} {y z : Slot} {h' : Str} (hy : Rafsi mz y.rafsi) (hz : Rafsi mz z.rafsi)
    (ez : z.text = z.rafsi ++ h')
    (ey : y.text = y.rafsi ++ s%"y" ∨ (y.text = y.rafsi ∧ ¬ NeedY mz y.rafsi z.rafsi)) : Joint mz y z := by
  obtain ⟨d, t, hd, hdc⟩ := rafsi_first hz
  have hlz := rafsi_length hz
  have hhead : z.text.head? = some d := by rw [ez, hd]; rfl
  have hhy : ¬ (z.text.head? = some '\'' ∨ shapeScore z.rafsi = 0) := by
    rintro (h | h)
    · rw [hhead] at h; cases h; revert hdc; decide
    · have := rafsi_tarmi hz; rw [shapeScore_other] at h; exact h.elim this.1 this.2
  have htake : z.text.take 2 = z.rafsi.take 2 := by rw [ez, take2_append (by omega)]
  rcases ey with ey | ⟨ey, hn⟩
  · have hl : y.text.getLast? = some 'y' := by rw [ey]; simp
    refine ⟨?_, ?_, fun h => absurd h hhy⟩
    · intro a b ha _ hac _
      rw [hl] at ha; cases ha; exact absurd hac (by decide)
    · intro a ha
      rw [hl] at ha; cases ha; exact mem_y_banned
  · obtain ⟨c, hc, h1, h2⟩ := rk_last (rafsi_rk hy)
    rw [← ey] at hc
    refine ⟨?_, ?_, fun h => absurd h hhy⟩
    · intro a b ha hb hac hbc
      rw [hc] at ha; cases ha
      rw [hhead] at hb; cases hb
      refine Classical.byContradiction fun hp => hn ?_
      cases hk : kindOf y.rafsi with
      | vv => exact absurd hac (vowel_not_consonant (h2 (.inl hk)))
      | ccv => exact absurd hac (vowel_not_consonant (h2 (.inr (.inl hk))))
      | long => exact absurd hac (vowel_not_consonant (h2 (.inr (.inr hk))))
      | cvc => exact .inr ⟨hk, c, by rw [← ey]; exact hc, .inl (fun d' hd' => by
          rw [hd] at hd'; cases hd'; exact hp)⟩
      | short => exact .inl hk
      | exp => exact absurd hk (rafsi_kind hy)
    · intro a ha hb
      rw [hc] at ha; cases ha
      rw [htake] at hb
      apply hn
      cases hk : kindOf y.rafsi with
      | vv => exact absurd hb (vowel_banned (h2 (.inl hk)))
      | ccv => exact absurd hb (vowel_banned (h2 (.inr (.inl hk))))
      | long => exact absurd hb (vowel_banned (h2 (.inr (.inr hk))))
      | cvc => exact .inr ⟨hk, c, by rw [← ey]; exact hc, .inr hb⟩
      | short => exact .inl hk
      | exp => exact absurd hk (rafsi_kind hy)

theorem late_cases (mz : Bool) (x x' : Str) :
    lateHyphen mz x x' = s%"y" ∨ (lateHyphen mz x x' = [] ∧ ¬ NeedY mz x x') := by
  unfold lateHyphen
  split
  · exact .inl rfl
  · exact .inr ⟨rfl, ‹_›⟩

theorem tail_joints {mz : Bool} {l : List (Str × Str)} (h : Tail mz l) : (∀ p ∈ l, Rafsi mz p.1) →
    ∀ y z, Beside (l.map slotOf) y z → Joint mz y z := by
  induction h with
  | last =>
    rintro - y z ⟨u, v, e⟩
    have := congrArg List.length e
    simp at this
    omega
  | @more x x' h' t hT ih =>
    intro hr y z hb
    rcases beside_cons.1 hb with ⟨rfl, rfl⟩ | hb
    · refine joint_mk (h' := h') (hr (x, lateHyphen mz x x') (by simp)) (hr (x', h') (by simp)) rfl ?_
      rcases late_cases mz x x' with h | ⟨h, hn⟩
      · left; simp [slotOf, h]
      · right; exact ⟨by simp [slotOf, h], hn⟩
    · exact ih (fun p hp => hr p (List.mem_cons_of_mem _ hp)) y z hb

theorem slots_tosm {l : List (Str × Str)} : Tosmabru (l.map slotOf) → (∀ p ∈ l, ∃ mz, Rafsi mz p.1) → Tosm l := by
  induction l with
  | nil => intro h; exact absurd h tosmabru_nil
  | cons p l ih =>
    intro h hr
    obtain ⟨x, hh⟩ := p
    cases l with
    | nil => exact absurd h tosmabru_single
    | cons q l =>
      obtain ⟨x', h'⟩ := q
      have hb := tosmabru_bare h
      obtain ⟨hb1, hb2⟩ := hb
      have hb2 : x ++ hh = x := hb2
      have hh0 : hh = [] := by simpa using hb2
      subst hh0
      have hk : kindOf x = .cvc := kind_cvc_iff.2 (pattern_cvc.1 hb1)
      obtain ⟨hpair, h⟩ := (tosmabru_cons ⟨hb1, hb2⟩).1 h
      obtain ⟨mz, hx'⟩ := hr (x', h') (by simp)
      have hm : Meet x x' := by
        obtain ⟨a, b, h1, h2, h3⟩ := hpair
        refine ⟨a, b, by rw [← hb2]; exact h1, ?_, h3⟩
        rw [← head_append (rafsi_ne hx') h']; exact h2
      rcases h with (⟨h, a, b, c, d, e, he, hi⟩ | ⟨h, he⟩) | h
      · have he : x' = [a, b, c, d, e] := he
        subst he
        exact .gismu hk hm h hi
      · have he : x' ++ h' = x' ++ s%"y" := he
        have he := List.append_cancel_left he
        subst he
        exact .y hk hm (kind_cvc_iff.2 (pattern_cvc.1 h))
      · exact .step hk hm (ih h (fun p hp => hr p (List.mem_cons_of_mem _ hp)))

/-- There are enough consonants for the `consonants` option. -/
def EnoughL (s : Settings) (l : List (Str × Str)) : Prop :=
  s.consonants = .cluster → (∃ p ∈ l, kindOf p.1 ≠ .vv) ∨ ∃ x h t, l = (x, h) :: t ∧ (h = s%"r" ∨ h = s%"n")

theorem sum_pos_of_mem {l : List Nat} {n : Nat} (h : n ∈ l) : n ≤ l.sum := by
  induction l with
  | nil => cases h
  | cons a l ih =>
    rcases List.mem_cons.1 h with rfl | h
    · simp
    · have := ih h; simp; omega

theorem count_pos {s : Settings} {z : Slot} (hk : z.kind ≠ .exp) (hs : s.consonants ≠ .cluster) : 1 ≤ z.count s := by
  unfold Slot.count
  cases h : z.kind with
  | exp => exact absurd h hk
  | vv => simp [hs]
  | _ => simp

theorem count_two {s : Settings} {z : Slot} (hk : z.kind ≠ .exp) (hv : z.kind ≠ .vv) : z.count s = 2 := by
  unfold Slot.count
  cases h : z.kind with
  | exp => exact absurd h hk
  | vv => exact absurd h hv
  | _ => rfl

/-- The canonical hyphens make a lujvo. -/
theorem canon_legal {s : Settings} {g : Bool} {l : List (Str × Str)} (h : Canon s g l)
    (hr : ∀ p ∈ l, Rafsi s.allowMz p.1) (hlong : ∀ p ∈ l.dropLast, kindOf p.1 ≠ .long) (he : EnoughL s l)
    (hend : ∃ c, (spell l).getLast? = some c ∧ if g then Consonant c else Vowel c) :
    ∃ zs hy, Fits true (l.map Prod.fst) zs ∧ Legal s g zs hy ∧ wordOf zs hy = spell l := by
  cases h with
  | @mk x x' h' t hT =>
    generalize hfh : firstHyphen s g x x' h' t = hh at *
    have hx : Rafsi s.allowMz x := hr (x, hh) (List.mem_cons_self ..)
    have hx' : Rafsi s.allowMz x' := hr (x', h') (by simp)
    have hrt : ∀ p ∈ (x', h') :: t, Rafsi s.allowMz p.1 := fun p hp => hr p (List.mem_cons_of_mem _ hp)
    have hexp := rafsi_kind hx
    have hxl := hlong (x, hh) (by simp)
    have hft := tail_fits hT hrt (fun p hp => hlong p (by simp only [List.dropLast_cons_cons]; exact List.mem_cons_of_mem _ hp))
    have hjt := tail_joints hT hrt
    have hnn : kindOf x = .vv ∨ kindOf x = .ccv → ¬ NeedY s.allowMz x x' := by
      intro hv h
      rcases h with h | ⟨h, -⟩ <;> rw [h] at hv <;> simp at hv
    have hnt : kindOf x = .vv ∨ kindOf x = .ccv → ¬ Tosm ((x, []) :: (x', h') :: t) := by
      intro hv h
      have := (tosm_bare h).1
      rw [this] at hv; simp at hv
    obtain ⟨c, hc, hc1, hc2⟩ := rk_last (rafsi_rk hx)
    have hcq : c ≠ '\'' := by
      rintro rfl
      cases hk : kindOf x with
      | exp => exact hexp hk
      | vv => exact absurd (hc2 (.inl hk)) (by decide)
      | ccv => exact absurd (hc2 (.inr (.inl hk))) (by decide)
      | long => exact absurd (hc2 (.inr (.inr hk))) (by decide)
      | cvc => exact absurd (hc1 (.inl hk)) (by decide)
      | short => exact absurd (hc1 (.inr hk)) (by decide)
    -- the first slot and the hyphen behind it
    have main : ∃ suf hy, hh = suf ++ hy ∧ Trailing true false x (kindOf x) suf ∧
        (suf = s%"y" ∨ (suf = [] ∧ ¬ NeedY s.allowMz x x')) ∧ (suf = s%"y" → hy = []) ∧
        (suf = [] → kindOf x = .cvc → g = false → ¬ Tosm ((x, []) :: (x', h') :: t)) ∧
        (hy = if kindOf x = .vv ∧ g = false ∧ ¬ (t = [] ∧ kindOf x' = .ccv) then
          if s.yHyphens = .forceY then s%"'y" else if x'.head? = some 'r' then s%"n" else s%"r" else []) ∧
        (hh = s%"r" ∨ hh = s%"n" → hy = hh) := by
      unfold firstHyphen at hfh
      cases hk : kindOf x with
      | exp => exact absurd hk hexp
      | long => exact absurd hk hxl
      | vv =>
        rw [if_neg (hnn (.inl hk)), if_neg (c := g = false ∧ Tosm _) (fun h => hnt (.inl hk) h.2)] at hfh
        refine ⟨[], hh, rfl, by simp [Trailing], .inr ⟨rfl, hnn (.inl hk)⟩, by simp, by simp, ?_, fun _ => rfl⟩
        rw [← hfh]
        simp only [true_and, hk]
      | ccv =>
        rw [if_neg (hnn (.inr hk)), if_neg (fun h => by rw [hk] at h; simp at h), if_neg (fun h => hnt (.inr hk) h.2)] at hfh
        subst hfh
        exact ⟨[], [], rfl, by simp [Trailing], .inr ⟨rfl, hnn (.inr hk)⟩, by simp, by simp, by simp, fun _ => rfl⟩
      | cvc =>
        rw [if_neg (show ¬ (kindOf x = .vv ∧ g = false ∧ ¬ (t = [] ∧ kindOf x' = .ccv)) by rw [hk]; simp)] at hfh
        split at hfh
        · subst hfh
          exact ⟨s%"y", [], rfl, by simp [Trailing], .inl rfl, by simp, by simp, by simp, by simp⟩
        · rename_i hN
          split at hfh
          · subst hfh
            exact ⟨s%"y", [], rfl, by simp [Trailing], .inl rfl, by simp, by simp, by simp, by simp⟩
          · rename_i hT2
            subst hfh
            exact ⟨[], [], rfl, by simp [Trailing], .inr ⟨rfl, hN⟩, by simp, fun _ _ hg ht => hT2 ⟨hg, ht⟩, by simp, by simp⟩
      | short =>
        rw [if_pos (.inl hk)] at hfh
        subst hfh
        exact ⟨s%"y", [], rfl, by simp [Trailing], .inl rfl, by simp, by simp, by simp, by simp⟩
    obtain ⟨suf, hy, e1, htr, hsuf, hsy, htos, ehy, hrn⟩ := main
    have hb2 : ∀ y z, Beside (slotOf (x, suf) :: ((x', h') :: t).map slotOf) y z → Joint s.allowMz y z := by
      intro y z hb
      rcases beside_cons.1 hb with ⟨rfl, rfl⟩ | hb
      · refine joint_mk (h' := h') hx hx' rfl ?_
        rcases hsuf with h | ⟨h, hn⟩
        · left; simp [slotOf, h]
        · right; exact ⟨by simp [slotOf, h], hn⟩
      · exact hjt y z hb
    have hword : wordOf (slotOf (x, suf) :: ((x', h') :: t).map slotOf) hy = spell ((x, hh) :: (x', h') :: t) := by
      simp only [wordOf, spell, slotOf, e1, List.map_cons, List.map_map, List.flatten_cons, List.append_assoc]
      rfl
    have hxne := rafsi_ne hx
    refine ⟨slotOf (x, suf) :: ((x', h') :: t).map slotOf, hy, ?_, ?_, hword⟩
    · exact .cons rfl rfl ((written_rafsi hx).2 ⟨suf, rfl, htr⟩) hft
    · refine ⟨⟨_, _, t.map slotOf, rfl, .inr ⟨?_, ?_, ?_⟩⟩, hb2, ?_, ?_, ?_, ?_⟩
      · show (x ++ suf).getLast? ≠ some '\''
        rcases hsuf with h | ⟨h, -⟩
        · rw [h]; simp
        · rw [h, List.append_nil, hc]; simpa using hcq
      · rintro ⟨h1, h2⟩
        have h2 : x ++ suf = x ++ s%"'y" := h2
        have h2 := List.append_cancel_left h2
        rcases hsuf with h | ⟨h, -⟩ <;> rw [h] at h2 <;> simp at h2
      · rw [ehy]
        have e3 : pattern (slotOf (x, suf)).rafsi ∈ [s%"CVV", s%"CV'V"] ↔ kindOf x = .vv := by
          simp only [List.mem_cons, List.not_mem_nil, or_false, slotOf]
          rw [pattern_cvv, pattern_cvhv, ← kind_vv]
        have e4 : ((slotOf (x, suf) :: ((x', h') :: t).map slotOf).length = 2 ∧ pattern (slotOf (x', h')).rafsi = s%"CCV") ↔
            (t = [] ∧ kindOf x' = .ccv) := by
          rw [pattern_ccv, kind_ccv]; simp [slotOf]
        have e5 : (slotOf (x', h')).text.head? = x'.head? := head_append (rafsi_ne hx') h'
        simp only [e3, e4, e5]
      · intro hg ht
        obtain ⟨hb1, hbare⟩ := tosmabru_bare ht
        have hk : kindOf x = .cvc := kind_cvc_iff.2 (pattern_cvc.1 hb1)
        have hs0 : suf = [] := by
          have : x ++ suf = x := hbare
          simpa using this
        refine htos hs0 hk hg ?_
        subst hs0
        refine slots_tosm (l := (x, []) :: (x', h') :: t) ht ?_
        intro p hp
        rcases List.mem_cons.1 hp with rfl | hp
        · exact ⟨_, hx⟩
        · exact ⟨_, hrt p hp⟩
      · rintro - ⟨y, rest, e, -, -, h⟩
        simp at e
        obtain ⟨-, rfl⟩ := e
        have h := (h (slotOf (x', h')) (by simp)).1
        rw [show (slotOf (x', h')).text.head? = x'.head? from head_append (rafsi_ne hx') h'] at h
        obtain ⟨d, t, hd, hdc⟩ := rafsi_first hx'
        rw [hd] at h
        cases h
        revert hdc; decide
      · unfold Enough
        by_cases hcl : s.consonants = .cluster
        · rcases he hcl with ⟨p, hp, hv⟩ | ⟨_, _, _, e, h⟩
          · right; right
            rw [if_neg (by rw [hcl]; simp)]
            rcases List.mem_cons.1 hp with rfl | hp
            · have := count_two (s := s) (z := slotOf (x, suf)) hexp hv
              rw [List.map_cons, List.sum_cons, this]
              omega
            · have := count_two (s := s) (z := slotOf p) (rafsi_kind (hrt p hp)) hv
              have := sum_pos_of_mem (l := (((x', h') :: t).map slotOf).map (Slot.count s)) (n := (slotOf p).count s) (by
                rw [List.map_map]; exact List.mem_map.2 ⟨p, hp, rfl⟩)
              rw [List.map_cons, List.sum_cons]
              omega
          · cases e
            rw [hrn h]
            rcases h with h | h <;> simp [h]
        · right; right
          have h1 := count_pos (s := s) (z := slotOf (x, suf)) hexp hcl
          have h2 := count_pos (s := s) (z := slotOf (x', h')) (rafsi_kind hx') hcl
          simp only [List.map_cons, List.sum_cons]
          split <;> omega
      · rw [hword]; exact hend

end Jvotci
