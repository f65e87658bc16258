import Verif.Lemmas.Canon3

/-!
# Helper lemmas: rafsi with hyphens as a list of pieces
-/

namespace Jvotci

open Spec

/-- The pieces of a rafsi with its hyphen. -/
def piecesOf (p : Str × Str) : List Str := if p.2 = [] then [p.1] else [p.1, p.2]

/-- The pieces of a word. -/
def flat (l : List (Str × Str)) : List Str := (l.map piecesOf).flatten

theorem flat_nil : flat [] = [] := rfl
theorem flat_cons (p : Str × Str) (l : List (Str × Str)) : flat (p :: l) = piecesOf p ++ flat l := rfl
theorem flat_bare (x : Str) (l : List (Str × Str)) : flat ((x, []) :: l) = x :: flat l := rfl
theorem flat_hyphen {x h : Str} (hh : h ≠ []) (l : List (Str × Str)) : flat ((x, h) :: l) = x :: h :: flat l := by
  rw [flat_cons, piecesOf, if_neg hh]; rfl

theorem flat_spell (l : List (Str × Str)) : (flat l).flatten = spell l := by
  induction l with
  | nil => rfl
  | cons p l ih =>
    obtain ⟨x, h⟩ := p
    by_cases hh : h = []
    · subst hh; rw [flat_bare, List.flatten_cons, ih]; simp [spell]
    · rw [flat_hyphen hh, List.flatten_cons, List.flatten_cons, ih]; simp [spell]

/-- Hyphens of one or two letters. -/
def Glue (h : Str) : Prop := h = [] ∨ h = s%"y" ∨ h = s%"'y" ∨ h = s%"r" ∨ h = s%"n"

theorem Glue.hyphen {h : Str} (hg : Glue h) (hn : h ≠ []) : Hyphen h := by
  rcases hg with h | rfl | rfl | rfl | rfl
  · exact absurd h hn
  all_goals decide

theorem flat_rafsi {mz : Bool} {l : List (Str × Str)} (hr : ∀ p ∈ l, Rafsi mz p.1 ∧ Glue p.2) :
    (flat l).filter (fun x => x.length > 2) = l.map Prod.fst := by
  induction l with
  | nil => rfl
  | cons p l ih =>
    obtain ⟨x, h⟩ := p
    have hx : 3 ≤ x.length ∧ x.length ≤ 5 := rafsi_length (hr (x, h) (by simp)).1
    have ih := ih (fun p hp => hr p (List.mem_cons_of_mem _ hp))
    have h3 : (fun x : Str => decide (x.length > 2)) x = true := by simp; omega
    rcases (hr (x, h) (by simp)).2 with h0 | h0 | h0 | h0 | h0 <;> simp only at h0 <;> subst h0
    · rw [flat_bare, List.filter_cons, if_pos h3, ih]; rfl
    all_goals
      rw [flat_hyphen (by simp), List.filter_cons, if_pos h3, List.filter_cons, if_neg (by simp), ih]; rfl

/-- All neighbours may stand next to each other. -/
def Links (y : YHyphens) (mz : Bool) (ps : List Str) : Prop := ∀ u p q v, ps = u ++ p :: q :: v → Link y mz p q

theorem links_one {y : YHyphens} {mz : Bool} {p : Str} : Links y mz [p] := by
  intro u a b v e
  have := congrArg List.length e
  simp at this; omega

theorem links_cons {y : YHyphens} {mz : Bool} {p q : Str} {v : List Str} :
    Links y mz (p :: q :: v) ↔ Link y mz p q ∧ Links y mz (q :: v) := by
  constructor
  · intro h
    exact ⟨h [] p q v rfl, fun u a b t e => h (p :: u) a b t (by rw [e]; rfl)⟩
  · rintro ⟨h1, h2⟩ u a b t e
    cases u with
    | nil => cases e; exact h1
    | cons c u => simp at e; exact h2 u a b t e.2

/-- What stands between two rafsi is allowed there. -/
def Between (y : YHyphens) (mz : Bool) (x h x' : Str) : Prop :=
  (h = [] → Link y mz x x') ∧ (h ≠ [] → Link y mz x h ∧ Link y mz h x')

theorem links_flat {y : YHyphens} {mz : Bool} {x h x' h' : Str} {t : List (Str × Str)} :
    Links y mz (flat ((x, h) :: (x', h') :: t)) ↔ Between y mz x h x' ∧ Links y mz (flat ((x', h') :: t)) := by
  have hhead : ∃ v, flat ((x', h') :: t) = x' :: v := by
    by_cases hh : h' = []
    · subst hh; exact ⟨_, rfl⟩
    · exact ⟨_, flat_hyphen hh _⟩
  obtain ⟨v, hv⟩ := hhead
  unfold Between
  by_cases hh : h = []
  · subst hh
    rw [flat_bare, hv, links_cons]; simp
  · rw [flat_hyphen hh, hv, links_cons, links_cons]; simp [hh, and_assoc]

/-! ## The kinds and their spelling -/

theorem kind_short {mz : Bool} {x : Str} (h : Rafsi mz x) :
    Short x ↔ (kindOf x = .vv ∨ kindOf x = .ccv ∨ kindOf x = .cvc) := by
  have hk := rafsi_rk h
  have na : ∀ {c}, Consonant c ∨ Vowel c → '\'' ≠ c := by rintro c h rfl; revert h; decide
  have ni : ∀ {a b}, InitialPair a b → '\'' ≠ a ∧ '\'' ≠ b := by
    intro a b h
    have := initial_cons h
    exact ⟨na (.inl ((isConsonant_iff _).1 this.1)), na (.inl ((isConsonant_iff _).1 this.2))⟩
  generalize kindOf x = k at hk
  cases hk with
  | cvv => simp [Short]
  | cvhv => simp [Short]
  | cvc => simp [Short]
  | ccv => simp [Short]
  | cvcc h1 h2 h3 => simp [Short, na (.inl h1), na (.inr h2), na (.inl h3.1), na (.inl h3.2.1)]
  | ccvc h1 h2 h3 => simp [Short, ni h1, na (.inr h2), na (.inl h3)]
  | cvccv h1 h2 h3 h4 => simp [Short]
  | ccvcv h1 h2 h3 h4 => simp [Short]

theorem kind_vowelRafsi {mz : Bool} {x : Str} (h : Rafsi mz x) : VowelRafsi x ↔ kindOf x = .vv := by
  rw [kind_vv]
  exact ⟨vowelRafsi_tarmi h, tarmi_vowelRafsi⟩

theorem kind_length {mz : Bool} {x : Str} (h : Rafsi mz x) : x.length < 5 ↔ kindOf x ≠ .long := by
  have hk := rafsi_rk h
  generalize kindOf x = k at hk
  cases hk <;> simp

theorem kind_five {mz : Bool} {x : Str} (h : Rafsi mz x) : x.length = 5 ↔ kindOf x = .long := by
  have hk := rafsi_rk h
  generalize kindOf x = k at hk
  cases hk <;> simp

/-- `q` may follow `p` without a hyphen. -/
theorem needY_iff {mz : Bool} {x x' : Str} (hx : Rafsi mz x) (hx' : Rafsi mz x') (hl : kindOf x ≠ .long) :
    ¬ NeedY mz x x' ↔ Short x ∧ (∀ c d, x.getLast? = some c → x'.head? = some d → Consonant c → PermissiblePair mz c d) ∧
      (∀ c d e t, x.getLast? = some c → x' = d :: e :: t → [c, d, e] ∉ bannedTriples) := by
  rw [kind_short hx]
  obtain ⟨c, hc, h1, h2⟩ := rk_last (rafsi_rk hx)
  have hlen := rafsi_length hx'
  match x', hlen, hx' with
  | d :: e :: t, _, hx' =>
  unfold NeedY
  have hcc : Consonant c ↔ ¬ Vowel c := by
    cases hk : kindOf x with
    | vv => have := h2 (.inl hk); exact ⟨fun h => absurd h (vowel_not_consonant this), fun h => absurd this h⟩
    | ccv => have := h2 (.inr (.inl hk)); exact ⟨fun h => absurd h (vowel_not_consonant this), fun h => absurd this h⟩
    | long => have := h2 (.inr (.inr hk)); exact ⟨fun h => absurd h (vowel_not_consonant this), fun h => absurd this h⟩
    | cvc => have := h1 (.inl hk); exact ⟨fun h h' => absurd h (vowel_not_consonant h'), fun _ => this⟩
    | short => have := h1 (.inr hk); exact ⟨fun h h' => absurd h (vowel_not_consonant h'), fun _ => this⟩
    | exp => exact absurd hk (rafsi_kind hx)
  have hvb : Vowel c → [c, d, e] ∉ bannedTriples := fun h => vowel_banned h
  constructor
  · intro h
    rw [not_or] at h
    obtain ⟨hs, h⟩ := h
    have hs' : kindOf x = .vv ∨ kindOf x = .ccv ∨ kindOf x = .cvc := by
      cases hk : kindOf x <;> simp
      · exact hs hk
      · exact hl hk
      · exact rafsi_kind hx hk
    refine ⟨hs', ?_, ?_⟩
    · intro c' d' hc' hd' hcc'
      rw [hc] at hc'; cases hc'
      cases hd'
      refine Classical.byContradiction fun hp => h ⟨?_, c, hc, .inl fun d' hd' => by cases hd'; exact hp⟩
      rcases hs' with h | h | h
      · exact absurd (h2 (.inl h)) (hcc.1 hcc')
      · exact absurd (h2 (.inr (.inl h))) (hcc.1 hcc')
      · exact h
    · intro c' d' e' t' hc' hd' hb
      rw [hc] at hc'; cases hc'
      cases hd'
      refine h ⟨?_, c, hc, .inr hb⟩
      rcases hs' with h | h | h
      · exact absurd hb (hvb (h2 (.inl h)))
      · exact absurd hb (hvb (h2 (.inr (.inl h))))
      · exact h
  · rintro ⟨hs, hp, ht⟩ (h | ⟨h, c', hc', h3⟩)
    · rw [h] at hs; simp at hs
    · rw [hc] at hc'; cases hc'
      rcases h3 with h3 | h3
      · exact h3 d rfl (hp c d hc rfl (h1 (.inl h)))
      · exact ht c d e t hc rfl h3

theorem needY_kind {mz : Bool} {x x' : Str} (h : NeedY mz x x') : kindOf x = .short ∨ kindOf x = .cvc := by
  rcases h with h | ⟨h, -⟩
  · exact .inl h
  · exact .inr h

theorem between_late {y : YHyphens} {mz : Bool} {x x' : Str} (hx : Rafsi mz x) (hx' : Rafsi mz x') (hl : kindOf x ≠ .long) :
    Between y mz x (lateHyphen mz x x') x' := by
  rcases late_cases mz x x' with h | ⟨h, hn⟩
  · rw [h]
    exact ⟨by simp, fun _ => ⟨.y hx ((kind_length hx).2 hl), .afterY (by simp) hx'⟩⟩
  · rw [h]
    obtain ⟨h1, h2, h3⟩ := (needY_iff hx hx' hl).1 hn
    exact ⟨fun _ => .rafsi hx hx' h1 h2 h3, by simp⟩

/-- r, or n before r. -/
theorem between_r {y : YHyphens} {mz : Bool} {x x' : Str} (hx : Rafsi mz x) (hx' : Rafsi mz x') (hv : kindOf x = .vv)
    (hy : y ≠ .forceY) : Between y mz x (if x'.head? = some 'r' then s%"n" else s%"r") x' := by
  have := (kind_vowelRafsi hx).2 hv
  split
  · exact ⟨by simp, fun _ => ⟨.rOrN hy hx this (by simp), .afterN hx' ‹_›⟩⟩
  · exact ⟨by simp, fun _ => ⟨.rOrN hy hx this (by simp), .afterR hx' ‹_›⟩⟩

theorem between_first {s : Settings} {g : Bool} {x x' h' : Str} {t : List (Str × Str)} (hx : Rafsi s.allowMz x)
    (hx' : Rafsi s.allowMz x') (hl : kindOf x ≠ .long) :
    Between s.yHyphens s.allowMz x (firstHyphen s g x x' h' t) x' := by
  unfold firstHyphen
  split
  · exact ⟨by simp, fun _ => ⟨.y hx ((kind_length hx).2 hl), .afterY (by simp) hx'⟩⟩
  · rename_i hn
    split
    · rename_i hv
      split
      · rename_i hf
        exact ⟨by simp, fun _ => ⟨.apostropheY (by rw [hf]; simp) hx ((kind_short hx).2 (.inl hv.1)), .afterY (by simp) hx'⟩⟩
      · exact between_r hx hx' hv.1 ‹_›
    · split
      · exact ⟨by simp, fun _ => ⟨.y hx ((kind_length hx).2 hl), .afterY (by simp) hx'⟩⟩
      · obtain ⟨h1, h2, h3⟩ := (needY_iff hx hx' hl).1 hn
        exact ⟨fun _ => .rafsi hx hx' h1 h2 h3, by simp⟩

theorem late_glue (mz : Bool) (x x' : Str) : Glue (lateHyphen mz x x') := by
  rcases late_cases mz x x' with h | ⟨h, -⟩ <;> rw [h] <;> simp [Glue]

theorem first_glue (s : Settings) (g : Bool) (x x' h' : Str) (t : List (Str × Str)) : Glue (firstHyphen s g x x' h' t) := by
  unfold firstHyphen Glue
  split
  · simp
  · split
    · split
      · simp
      · split <;> simp
    · split <;> simp

theorem tail_glue {mz : Bool} {l : List (Str × Str)} (h : Tail mz l) : ∀ p ∈ l, Glue p.2 := by
  induction h with
  | last => simp [Glue]
  | more _ ih =>
    intro p hp
    rcases List.mem_cons.1 hp with rfl | hp
    · exact late_glue ..
    · exact ih p hp

theorem canon_glue {s : Settings} {g : Bool} {l : List (Str × Str)} (h : Canon s g l) : ∀ p ∈ l, Glue p.2 := by
  cases h with
  | mk hT =>
    intro p hp
    rcases List.mem_cons.1 hp with rfl | hp
    · exact first_glue ..
    · exact tail_glue hT p hp

/-! ## More r and n -/

/-- The words differ by some r or n after CVV or CV'V in the second. -/
inductive Ext (y : YHyphens) : List (Str × Str) → List (Str × Str) → Prop
  | nil : Ext y [] []
  | same {p l m} : Ext y l m → Ext y (p :: l) (p :: m)
  | extra {x x' h h' l m} : y ≠ .forceY → kindOf x = .vv →
      Ext y ((x', h) :: l) ((x', h') :: m) →
      Ext y ((x, []) :: (x', h) :: l) ((x, if x'.head? = some 'r' then s%"n" else s%"r") :: (x', h') :: m)

theorem Ext.refl (y : YHyphens) : ∀ l : List (Str × Str), Ext y l l
  | [] => .nil
  | _ :: l => .same (Ext.refl y l)

theorem Ext.fst {y : YHyphens} {l m : List (Str × Str)} (h : Ext y l m) : l.map Prod.fst = m.map Prod.fst := by
  induction h with
  | nil => rfl
  | same _ ih => simp [ih]
  | extra _ _ _ ih => rw [List.map_cons, ih]; rfl

theorem Ext.glue {y : YHyphens} {l m : List (Str × Str)} (h : Ext y l m) : (∀ p ∈ l, Glue p.2) → ∀ p ∈ m, Glue p.2 := by
  induction h with
  | nil => intro h; exact h
  | same _ ih =>
    intro h p hp
    rcases List.mem_cons.1 hp with rfl | hp
    · exact h _ (by simp)
    · exact ih (fun p hp => h p (List.mem_cons_of_mem _ hp)) p hp
  | extra _ _ _ ih =>
    intro h p hp
    rcases List.mem_cons.1 hp with rfl | hp
    · simp only [Glue]; split <;> simp
    · exact ih (fun p hp => h p (List.mem_cons_of_mem _ hp)) p hp

theorem Ext.forceY {y : YHyphens} {l m : List (Str × Str)} (h : Ext y l m) (hy : y = .forceY) : l = m := by
  induction h with
  | nil => rfl
  | same _ ih => rw [ih]
  | extra h => exact absurd hy h

/-- The pieces are linked, with or without the extra r and n. -/
theorem ext_links {y : YHyphens} {mz : Bool} {l m : List (Str × Str)} (h : Ext y l m) : (∀ p ∈ l, Rafsi mz p.1) →
    Links y mz (flat l) → Links y mz (flat m) := by
  induction h with
  | nil => intro _ h; exact h
  | @same p l m hE ih =>
    intro hr h
    cases hE with
    | nil => exact h
    | same hE =>
      obtain ⟨x, hh⟩ := p
      rename_i q l m
      obtain ⟨x', h'⟩ := q
      rw [links_flat] at h ⊢
      exact ⟨h.1, ih (fun p hp => hr p (List.mem_cons_of_mem _ hp)) h.2⟩
    | extra hy hv hE =>
      obtain ⟨x, hh⟩ := p
      rw [links_flat] at h ⊢
      exact ⟨h.1, ih (fun p hp => hr p (List.mem_cons_of_mem _ hp)) h.2⟩
  | @extra x x' h0 h' l m hy hv hE ih =>
    intro hr h
    rw [links_flat] at h ⊢
    exact ⟨between_r (hr (x, []) (by simp)) (hr (x', h0) (by simp)) hv hy, ih (fun p hp => hr p (List.mem_cons_of_mem _ hp)) h.2⟩

theorem tail_links {y : YHyphens} {mz : Bool} {l : List (Str × Str)} (h : Tail mz l) : (∀ p ∈ l, Rafsi mz p.1) →
    (∀ p ∈ l.dropLast, kindOf p.1 ≠ .long) → Links y mz (flat l) := by
  induction h with
  | last => intro _ _; exact links_one
  | @more x x' h' t hT ih =>
    intro hr hl
    rw [links_flat]
    refine ⟨between_late (hr (x, lateHyphen mz x x') (by simp)) (hr (x', h') (by simp)) (hl (x, lateHyphen mz x x') (by simp)), ih (fun p hp => hr p (List.mem_cons_of_mem _ hp)) (fun p hp => hl p ?_)⟩
    simp only [List.dropLast_cons_cons]
    exact List.mem_cons_of_mem _ hp

theorem made_links {s : Settings} {g : Bool} {l : List (Str × Str)} (h : Made s g l) : Links s.yHyphens s.allowMz (flat l) := by
  obtain ⟨hc, hr, hl⟩ := h
  cases hc with
  | @mk x x' h' t hT =>
    rw [links_flat]
    refine ⟨between_first (hr (x, firstHyphen s g x x' h' t) (by simp)) (hr (x', h') (by simp)) (hl (x, firstHyphen s g x x' h' t) (by simp)),
      tail_links hT (fun p hp => hr p (List.mem_cons_of_mem _ hp)) (fun p hp => hl p ?_)⟩
    simp only [List.dropLast_cons_cons]
    exact List.mem_cons_of_mem _ hp

/-- The rafsi CVV are proper diphthongs. -/
def Diph (x : Str) : Prop := ∀ c a b, x = [c, a, b] → Vowel a → Vowel b → [a, b] ∈ [s%"ai", s%"ei", s%"oi", s%"au"]

theorem mem_flat {l : List (Str × Str)} {p : Str} : p ∈ flat l ↔ ∃ q ∈ l, p = q.1 ∨ (q.2 ≠ [] ∧ p = q.2) := by
  induction l with
  | nil => simp [flat]
  | cons q l ih =>
    rw [flat_cons, List.mem_append, ih]
    unfold piecesOf
    split
    · simp_all
    · simp_all

theorem flat_last {l : List (Str × Str)} {x : Str} {u : List (Str × Str)} (h : l = u ++ [(x, [])]) : (flat l).getLast? = some x := by
  subst h
  rw [flat, List.map_append, List.flatten_append, List.getLast?_append]
  rfl

theorem tail_end {mz : Bool} {l : List (Str × Str)} (h : Tail mz l) : ∃ u x, l = u ++ [(x, [])] := by
  induction h with
  | last => exact ⟨[], _, rfl⟩
  | more _ ih =>
    obtain ⟨u, x, e⟩ := ih
    exact ⟨_ :: u, x, by rw [e]; rfl⟩

theorem canon_end {s : Settings} {g : Bool} {l : List (Str × Str)} (h : Canon s g l) : ∃ u x, l = u ++ [(x, [])] := by
  cases h with
  | mk hT =>
    obtain ⟨u, x, e⟩ := tail_end hT
    exact ⟨_ :: u, x, by rw [e]; rfl⟩

theorem ext_end {y : YHyphens} {l m : List (Str × Str)} (h : Ext y l m) : (∃ u x, l = u ++ [(x, [])]) → ∃ u x, m = u ++ [(x, [])] := by
  induction h with
  | nil => rintro ⟨u, x, e⟩; simp at e
  | @same p l m hE ih =>
    rintro ⟨u, x, e⟩
    cases u with
    | nil =>
      simp at e
      obtain ⟨rfl, rfl⟩ := e
      cases hE
      exact ⟨[], x, rfl⟩
    | cons q u =>
      simp at e
      obtain ⟨u', x', e'⟩ := ih ⟨u, x, e.2⟩
      exact ⟨p :: u', x', by rw [e']; rfl⟩
  | extra _ _ _ ih =>
    rintro ⟨u, x, e⟩
    cases u with
    | nil => simp at e
    | cons q u =>
      simp at e
      obtain ⟨u', x', e'⟩ := ih ⟨u, x, by simp [e.2]⟩
      exact ⟨_ :: u', x', by rw [e']; rfl⟩

theorem flat_head {x h : Str} {l : List (Str × Str)} : ∃ v, flat ((x, h) :: l) = x :: v := by
  by_cases hh : h = []
  · subst hh; exact ⟨_, rfl⟩
  · exact ⟨_, flat_hyphen hh _⟩

/-- The pieces are a reading. -/
theorem ext_reading {s : Settings} {g : Bool} {l m : List (Str × Str)} (h : Made s g l) (he : Ext s.yHyphens l m)
    (hd : ∀ p ∈ l, Diph p.1) : Reading s.yHyphens s.allowMz (flat m) := by
  have hlk := ext_links he h.rafsi (made_links h)
  have hg := he.glue (canon_glue h.canon)
  have hr : ∀ p ∈ m, Rafsi s.allowMz p.1 ∧ Diph p.1 := by
    intro p hp
    have : p.1 ∈ l.map Prod.fst := by rw [he.fst]; exact List.mem_map.2 ⟨p, hp, rfl⟩
    obtain ⟨q, hq, e⟩ := List.mem_map.1 this
    rw [← e]; exact ⟨h.rafsi q hq, hd q hq⟩
  obtain ⟨u, z, hend⟩ := ext_end he (canon_end h.canon)
  have hne : m ≠ [] := by rw [hend]; simp
  match m, hne with
  | (x, k) :: m, _ =>
    obtain ⟨v, hv⟩ := flat_head (x := x) (h := k) (l := m)
    refine ⟨⟨x, by rw [hv]; rfl, (hr (x, k) (by simp)).1⟩, ⟨z, flat_last hend, (hr (z, []) (by rw [hend]; simp)).1⟩, ?_, hlk, ?_⟩
    · intro p hp
      rcases mem_flat.1 hp with ⟨q, hq, rfl | ⟨hn, rfl⟩⟩
      · exact (hr q hq).2
      · intro c a b e
        rcases hg q hq with h | h | h | h | h <;> rw [h] at e <;> simp at e
    · intro a b c w hb e
      have hk : k = s%"'y" ∧ x = [a, b, c] := by
        by_cases hk : k = []
        · subst hk
          rw [flat_bare] at e
          cases m with
          | nil => cases e
          | cons q m =>
            exfalso
            obtain ⟨x', h'⟩ := q
            obtain ⟨v', hv'⟩ := flat_head (x := x') (h := h') (l := m)
            rw [hv'] at e
            have := rafsi_length (hr (x', h') (by simp)).1
            cases e
            simp at this
        · rw [flat_hyphen hk] at e
          simp at e
          exact ⟨e.2.1, e.1⟩
      obtain ⟨rfl, rfl⟩ := hk
      have hk : kindOf [a, b, c] = .vv := by
        obtain ⟨hc, -, -⟩ := h
        generalize hq : s%"'y" = yy at he
        cases hc with
        | @mk x x' h' t hT =>
          generalize hfh : firstHyphen s g x x' h' t = fh at he
          cases he with
          | same he =>
            rw [← hfh] at hq
            unfold firstHyphen at hq
            split at hq
            · cases hq
            · split at hq
              · rename_i h; exact h.1
              · split at hq <;> cases hq
          | extra _ hvv => exact hvv
      have := (kind_vowelRafsi (hr ([a, b, c], s%"'y") (by simp)).1).2 hk
      obtain ⟨c', a', b', ha, -, e | e⟩ := this
      · cases e; exact absurd hb (vowel_not_consonant ha)
      · cases e

end Jvotci
