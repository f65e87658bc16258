import Verif.Lemmas.Found

/-!
# How long the best lujvo of gismu is
-/

namespace Jvotci
open Spec

theorem rk_length {mz : Bool} {x : Str} {k : Kind} (h : RK mz x k) :
    (k = .vv → x.length ≤ 4) ∧ (k = .cvc → x.length = 3) ∧ (k = .ccv → x.length = 3) ∧ (k = .short → x.length = 4) ∧ (k = .long → x.length = 5) ∧ k ≠ .exp := by
  cases h <;> simp

theorem late_length {mz : Bool} {x : Str} (x' : Str) (h : Rafsi mz x) (hk : kindOf x ≠ .long) :
    (x ++ lateHyphen mz x x').length ≤ 5 ∧
      ((x ++ lateHyphen mz x x').length = 5 → kindOf x = .short ∧ lateHyphen mz x x' = s%"y") := by
  have hl := rk_length (rafsi_rk h)
  unfold lateHyphen
  cases hx : kindOf x with
  | vv =>
    have : ¬ NeedY mz x x' := by simp [NeedY, hx]
    have := hl.1 hx
    simp_all; omega
  | ccv =>
    have : ¬ NeedY mz x x' := by simp [NeedY, hx]
    have := hl.2.2.1 hx
    simp_all
  | cvc =>
    have := hl.2.1 hx
    split <;> simp_all
  | short =>
    have : NeedY mz x x' := .inl hx
    have := hl.2.2.2.1 hx
    simp_all
  | long => exact absurd hx hk
  | exp => exact absurd hx hl.2.2.2.2.2

/-- Behind the first joint no rafsi takes more than five letters, and five only if all have a y or stand at the end. -/
theorem tail_length {mz : Bool} {l : List (Str × Str)} (h : Tail mz l) : (∀ p ∈ l, Rafsi mz p.1) →
    (∀ p ∈ l.dropLast, kindOf p.1 ≠ .long) → (spell l).length ≤ 5 * l.length ∧
      ((spell l).length = 5 * l.length → ∀ p ∈ l.dropLast, kindOf p.1 = .short ∧ p.2 = s%"y") := by
  induction h with
  | @last x =>
    intro hr _
    have hx := rk_length (rafsi_rk (hr (x, []) (by simp)))
    refine ⟨?_, by simp⟩
    simp only [spell, List.map_cons, List.map_nil, List.flatten_cons, List.flatten_nil, List.append_nil, List.length_cons, List.length_nil]
    cases hk : kindOf x <;> simp only [hk] at hx <;> simp at hx <;> omega
  | @more x x' h' t _ ih =>
    intro hr hl
    have h1 := late_length (x := x) x' (hr (x, _) (List.mem_cons_self ..)) (hl (x, lateHyphen mz x x') (by simp))
    have h2 := ih (fun p hp => hr p (List.mem_cons_of_mem _ hp)) (fun p hp => hl p (by simp at hp ⊢; exact .inr hp))
    have e : (spell ((x, lateHyphen mz x x') :: (x', h') :: t)).length = (x ++ lateHyphen mz x x').length + (spell ((x', h') :: t)).length := by
      simp [spell]; omega
    rw [e, List.length_cons]
    refine ⟨by omega, fun h p hp => ?_⟩
    rw [List.dropLast_cons_of_ne_nil (by simp)] at hp
    rcases List.mem_cons.1 hp with rfl | hp
    · exact h1.2 (by omega)
    · exact h2.2 (by omega) p hp

/-- The first rafsi takes more than five letters only if it is CV'V'y. -/
theorem first_length {s : Settings} {g : Bool} {x : Str} (x' h' : Str) (t : List (Str × Str)) (h : Rafsi s.allowMz x) (hk : kindOf x ≠ .long) :
    (x ++ firstHyphen s g x x' h' t).length ≤ 5 ∨ ((x ++ firstHyphen s g x x' h' t).length = 6 ∧ kindOf x = .vv ∧ s.yHyphens = .forceY ∧ firstHyphen s g x x' h' t = s%"'y") := by
  have hl := rk_length (rafsi_rk h)
  unfold firstHyphen
  cases hx : kindOf x with
  | vv =>
    have : ¬ NeedY s.allowMz x x' := by simp [NeedY, hx]
    have := hl.1 hx
    repeat' split
    all_goals simp_all
    all_goals omega
  | ccv =>
    have := hl.2.2.1 hx
    repeat' split
    all_goals simp_all
  | cvc =>
    have := hl.2.1 hx
    repeat' split
    all_goals simp_all
  | short =>
    have : NeedY s.allowMz x x' := .inl hx
    have := hl.2.2.2.1 hx
    simp_all
  | long => exact absurd hx hk
  | exp => exact absurd hx hl.2.2.2.2.2

/-- The best lujvo of gismu and cmavo has at most five letters for each of them, but for CV'V'y under FORCE_Y. -/
theorem plain_length {b : Build} {s : Settings} {g : Bool} {vs : List Str} {zs : List Slot} {hy : Str} (hs : ∀ v ∈ vs, Plain s.allowMz v)
    (hrep : Represents b s vs.length 0 vs zs) (hL : Legal s g zs hy) (hmin : ∀ w sc, LujvoOf b s g vs w sc → cost zs hy ≤ sc) :
    (wordOf zs hy).length ≤ 5 * vs.length ∨
    ((wordOf zs hy).length = 5 * vs.length + 1 ∧ s.yHyphens = .forceY ∧ ∃ x rest, wordOf zs hy = x ++ s%"'y" ++ spell rest ∧ x.length = 4 ∧
      x :: rest.map Prod.fst = zs.map Slot.rafsi ∧ Tail s.allowMz rest ∧ rest ≠ [] ∧ ∀ p ∈ rest.dropLast, kindOf p.1 = .short ∧ p.2 = s%"y") := by
  have hr : ∀ z ∈ zs, Rafsi s.allowMz z.rafsi := by
    intro z hz
    obtain ⟨v, hv, hu⟩ := represents_mem hrep z hz
    exact (plain_rafsi (hs v hv) hu).1
  obtain ⟨l, hM, e, he⟩ := best_made_fst hrep hL hmin hr (plain_short hs hrep hL hmin)
  have hlen : l.length = vs.length := by
    have := congrArg List.length he
    simp only [List.length_map] at this
    rw [this, represents_length hrep]
  obtain ⟨hc, hra, hlo⟩ := hM
  cases hc with
  | @mk x x' h' t hT =>
    have h1 := first_length (s := s) (g := g) (x := x) x' h' t (hra (x, _) (List.mem_cons_self ..)) (hlo (x, firstHyphen s g x x' h' t) (by simp))
    have h2 := tail_length hT (fun p hp => hra p (List.mem_cons_of_mem _ hp)) (fun p hp => hlo p (by simp at hp ⊢; exact .inr hp))
    rw [e, spell_cons, ← List.append_assoc, List.length_append, ← hlen, List.length_cons]
    rcases h1 with h1 | ⟨h1, hk, hf, hh⟩
    · exact .inl (by omega)
    · by_cases h5 : (spell ((x', h') :: t)).length = 5 * ((x', h') :: t).length
      · exact .inr ⟨by omega, hf, x, (x', h') :: t, by rw [hh], by rw [hh] at h1; simpa using h1, he, hT, by simp, h2.2 h5⟩
      · exact .inl (by omega)

/-- The best lujvo of gismu has at most five letters for each of them. -/
theorem gismu_best_length {b : Build} {s : Settings} {g : Bool} {vs : List Str} {zs : List Slot} {hy : Str} (hs : ∀ v ∈ vs, Gismu s.allowMz v)
    (hrep : Represents b s vs.length 0 vs zs) (hL : Legal s g zs hy) (hmin : ∀ w sc, LujvoOf b s g vs w sc → cost zs hy ≤ sc) :
    (wordOf zs hy).length ≤ 5 * vs.length := by
  have hp : ∀ v ∈ vs, Plain s.allowMz v := fun v hv => .inl (hs v hv)
  rcases plain_length hp hrep hL hmin with h | ⟨hw, hf, x, rest, e, hk, he, hT, hne, hall⟩
  · exact h
  exfalso
  have hr : ∀ z ∈ zs, Rafsi s.allowMz z.rafsi := by
    intro z hz
    obtain ⟨v, hv, hu⟩ := represents_mem hrep z hz
    exact (plain_rafsi (hp v hv) hu).1
  have hlong := plain_short hp hrep hL hmin
  have hfit := (represents_same (by simp) hrep hr hlong).1
  cases hrep with
  | nil => simp at he
  | @cons _ v vs z zs hu hwr hrep =>
    simp only [List.map_cons, List.cons.injEq] at he
    obtain ⟨hx, he⟩ := he
    have hzne : zs ≠ [] := by rintro rfl; simp at he; exact hne he
    have hrr : ∀ p ∈ rest, Rafsi s.allowMz p.1 := by
      intro p hp
      have : p.1 ∈ zs.map Slot.rafsi := he ▸ List.mem_map_of_mem hp
      obtain ⟨z, hz, e⟩ := List.mem_map.1 this
      exact e ▸ hr z (List.mem_cons_of_mem _ hz)
    have hft := tail_fits hT hrr (fun p hp => by rw [(hall p hp).1]; decide)
    rw [he] at hft
    have hrep2 := (represents_same (by simp; omega) hrep (fun z hz => hr z (List.mem_cons_of_mem _ hz))
      (fun z hz => hlong z (by rw [List.dropLast_cons_of_ne_nil hzne]; exact List.mem_cons_of_mem _ hz))).2 _ hft
    have hv := hs v (by simp)
    obtain ⟨y, c, rfl⟩ : ∃ y c, v = y ++ [c] := by
      have : v ≠ [] := by rintro rfl; cases hv
      exact ⟨v.dropLast, v.getLast this, (List.dropLast_concat_getLast this).symm⟩
    have hlet : ∀ d ∈ y ++ [c], Vowel d ∨ Consonant d ∨ d = '\'' := rafsi_letters (.gismu hv)
    obtain ⟨hry, h4, -, hc⟩ := gismu_cut hv
    obtain ⟨hpy, d, hd, hdc⟩ := cut_pattern hv
    have hdash : (y ++ [c]).getLast? ≠ some '-' := by
      simp; rintro rfl; revert hc; decide
    have hwt : WordType b s (y ++ [c]) .gismu := ⟨[y ++ [c]], C03_gismu_iff.2 ⟨by simp, by rw [reading_letters hlet]; exact hv, by rw [reading_letters hlet]⟩⟩
    have hvl : vs.length ≠ 0 := by
      rw [← represents_length hrep]; simpa using hzne
    have hR : Represents b s ((y ++ [c]) :: vs).length 0 ((y ++ [c]) :: vs) (⟨y, .short, y ++ s%"y"⟩ :: rest.map slotOf) := by
      refine .cons (.stem hdash hwt rfl) ⟨s%"y", ?_, .inl ⟨rfl, by simpa using fun h => hvl (by simp [← h])⟩⟩ hrep2
      simp [leading]
    have hkey : kindOf y = .short := by
      have h := rk_length (rafsi_rk hry)
      have h' := rk_last (rafsi_rk hry)
      obtain ⟨d', hd', h'⟩ := h'
      cases hd.symm.trans hd'
      cases hk : kindOf y with
      | short => rfl
      | vv => exact absurd (h'.2 (.inl hk)) (fun h => consonant_not_vowel hdc h)
      | ccv => have := h.2.2.1 hk; omega
      | cvc => have := h.2.1 hk; omega
      | long => have := h.2.2.2.2.1 hk; omega
      | exp => exact absurd hk h.2.2.2.2.2
    have hF : Fits true (y :: zs.map Slot.rafsi) (⟨y, .short, y ++ s%"y"⟩ :: rest.map slotOf) := by
      refine .cons rfl hkey.symm ⟨s%"y", by simp [leading], .inl ⟨rfl, by simpa using hzne⟩⟩ hft
    have hwn : wordOf (⟨y, .short, y ++ s%"y"⟩ :: rest.map slotOf) [] = y ++ s%"y" ++ spell rest := by
      simp [wordOf, spell, slotOf, Function.comp_def]
    have hsp : spell rest ≠ [] := by
      intro h0
      obtain ⟨p, rest', rfl⟩ := List.exists_cons_of_ne_nil hne
      have := rk_length (rafsi_rk (hrr p (by simp)))
      simp [spell] at h0
      have h0 := h0.1
      rw [h0] at this
      revert this
      decide
    have hLn : Legal s g (⟨y, .short, y ++ s%"y"⟩ :: rest.map slotOf) [] := by
      obtain ⟨q, rest', hq⟩ := List.exists_cons_of_ne_nil hne
      refine legal_y ⟨⟨y, .short, y ++ s%"y"⟩, slotOf q, rest'.map slotOf, by rw [hq]; rfl, hpy⟩ ?_ ?_ ?_
      · intro z hz
        rw [List.dropLast_cons_of_ne_nil (by simpa using hne), ← List.map_dropLast] at hz
        rcases List.mem_cons.1 hz with rfl | hz
        · simp
        · obtain ⟨p, hp, rfl⟩ := List.mem_map.1 hz
          simp [slotOf, (hall p hp).2]
      · simp [Slot.count]
      · obtain ⟨l, hl, hl'⟩ := hL.ends
        refine ⟨l, ?_, hl'⟩
        rw [hwn, List.getLast?_append]
        rw [e, List.getLast?_append] at hl
        cases h0 : (spell rest).getLast? with
        | none => exact absurd (List.getLast?_eq_none_iff.1 h0) hsp
        | some l' => rw [h0] at hl; simpa using hl
    have c1 := cost_letters (xs := x :: zs.map Slot.rafsi) (by
      intro u hu
      rw [hx] at hu
      have : u ∈ (z :: zs).map Slot.rafsi := hu
      obtain ⟨z, hz, rfl⟩ := List.mem_map.1 this
      exact hr z hz) (by rw [hx]; exact hfit) hL
    have c2 := cost_letters (xs := y :: zs.map Slot.rafsi) (by
      intro u hu
      rcases List.mem_cons.1 hu with rfl | hu
      · exact hry
      · obtain ⟨z, hz, rfl⟩ := List.mem_map.1 hu
        exact hr z (List.mem_cons_of_mem _ hz)) hF hLn
    have := hmin _ _ ⟨_, _, hR, hLn, rfl, rfl⟩
    have hs8 : shapeScore x ≤ 8 := by unfold shapeScore; repeat' split <;> try omega
    have hv4 : vowelCount x ≤ 4 := by
      rw [← hk]; exact List.length_filter_le ..
    have hy0 : y.count 'y' = 0 := by
      rw [List.count_eq_zero]
      intro h
      rcases hlet _ (List.mem_append_left _ h) with h | h | h <;> revert h <;> decide
    rw [e, letterCost_append, letterCost_append] at c1
    rw [hwn, letterCost_append, letterCost_append] at c2
    have l1 : letterCost x ≥ 4000 := by unfold letterCost; omega
    have l2 : letterCost s%"'y" = 2100 := by decide
    have l3 : letterCost s%"y" = 1100 := by decide
    have l4 : letterCost y = 4000 := by unfold letterCost; rw [hy0, h4]; decide
    simp only [List.map_cons, List.sum_cons, List.flatten_cons, vowelCount_append] at c1 c2
    omega

end Jvotci
