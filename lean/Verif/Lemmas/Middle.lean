import Verif.Lemmas.Zih
import Verif.SpecZihevla

/-!
# Helper lemmas: the regular expressions for clusters in the middle of a zi'evla
-/

namespace Jvotci

open Spec

/-- The first full match of a sequence, as far as a group of its second half is concerned. -/
theorem seq_get {a b : Re} {s : Str} {n : Nat} (h : ∀ x ∈ a.run s, x.2.lookup n = none) :
    ((Re.seq a b).fullmatch s).map (·.get n) = ((a.run s).map (·.1)).findSome? (fun r => (b.fullmatch r).map (·.get n)) := by
  unfold Re.fullmatch Groups.get
  rw [Re.run, List.find?_flatMap, List.findSome?_map]
  generalize a.run s = l at h
  induction l with
  | nil => rfl
  | cons x l ih =>
    have ih := ih fun y hy => h y (by simp [hy])
    have hx := h x (by simp)
    simp only [List.findSome?_cons, List.find?_map, Function.comp_def] at ih ⊢
    cases hb : List.find? (fun x => x.1.isEmpty) (b.run x.1) with
    | none => simpa using ih
    | some y =>
      simp only [Option.map_some, List.lookup_append, hx]
      cases List.lookup n y.2 <;> rfl

def peel : Str → List Str
  | a :: b :: r => if isConsonant a && isSonorant b then peel r ++ [a :: b :: r] else [a :: b :: r]
  | s => [s]

theorem starRun_peel : ∀ {fuel : Nat} {s : Str}, s.length ≤ fuel →
    starRun (Re.seq (.cls isConsonant) (.cls isSonorant)).run fuel s = (peel s).map (fun r => (r, [])) := by
  intro fuel
  induction fuel using Nat.strongRecOn with
  | ind fuel ih =>
    intro s h
    match fuel, s, h with
    | 0, [], _ => rfl
    | fuel + 1, [], _ => simp [starRun, Re.run, peel]
    | fuel + 1, [a], _ =>
      simp only [starRun, Re.run, peel]
      split <;> simp
    | fuel + 1, a :: b :: r, h =>
      simp only [starRun, Re.run, peel]
      by_cases ha : isConsonant a = true <;> by_cases hb : isSonorant b = true
      · have := ih fuel (by omega) (s := r) (by simp at h; omega)
        simp [ha, hb, Re.run] at this ⊢
        rw [List.filter_cons_of_pos (by simp; omega)]
        simp [this]
      all_goals simp [ha, hb]

/-- The part of the long expression after the pairs. -/
def reTail : Re :=
  .alt (.grp 3 (.seq (.cls isObstruent) (.seq (.opt (.cls isConsonant)) (.opt (.cls isSonorant))))) (.grp 4 (.cls isConsonant))

def judge : Option Str → Bool
  | some g => isZihevlaInitialCluster g
  | none => true

def verdict : Str → Option Bool
  | [_] => some true
  | [a, b] => if isObstruent a then some (isZihevlaInitialCluster [a, b]) else none
  | [a, b, c] => if isObstruent a && isSonorant c then some (isZihevlaInitialCluster [a, b, c]) else none
  | _ => none

theorem tail_verdict {r : Str} (h : ∀ c ∈ r, isConsonant c = true) :
    ((reTail.fullmatch r).map (·.get 3)).map judge = verdict r := by
  have i1 : ∀ a, isZihevlaInitialCluster [a] = true := by intro a; rfl
  match r, h with
  | [], _ => rfl
  | [a], h =>
    have ha := h a (by simp)
    by_cases ho : isObstruent a = true <;>
      simp [reTail, Re.fullmatch, Re.run, ha, ho, verdict, Groups.get, judge, i1, List.lookup]
  | [a, b], h =>
    have ha := h a (by simp)
    have hb := h b (by simp)
    by_cases ho : isObstruent a = true <;> by_cases hs : isSonorant b = true <;>
      simp [reTail, Re.fullmatch, Re.run, ha, hb, ho, hs, verdict, Groups.get, judge, i1, List.lookup]
  | [a, b, c], h =>
    have ha := h a (by simp)
    have hb := h b (by simp)
    have hc := h c (by simp)
    by_cases ho : isObstruent a = true <;> by_cases hs : isSonorant b = true <;> by_cases hs' : isSonorant c = true <;>
      simp [reTail, Re.fullmatch, Re.run, ha, hb, hc, ho, hs, hs', verdict, Groups.get, judge, i1, List.lookup]
  | a :: b :: c :: d :: t, h =>
    have ha := h a (by simp)
    have hb := h b (by simp)
    have hc := h c (by simp)
    by_cases ho : isObstruent a = true <;> by_cases hs : isSonorant b = true <;> by_cases hs' : isSonorant c = true <;>
      simp [reTail, Re.fullmatch, Re.run, ha, hb, hc, ho, hs, hs', verdict, Groups.get, judge, i1, List.lookup]

theorem reHead_run {c : Char} {cs : Str} (h : isConsonant c = true) :
    (reHead.run (c :: cs)).map (·.1) = peel cs ++ peel (c :: cs) ∧ ∀ x ∈ reHead.run (c :: cs), x.2.lookup 3 = none := by
  have e : ∀ s : Str, (Re.grp 2 (.star (.seq (.cls isConsonant) (.cls isSonorant)))).run s =
      (peel s).map (fun r => (r, [(2, s.take (s.length - r.length))])) := by
    intro s
    rw [Re.run, Re.run, starRun_peel (Nat.le_refl _), List.map_map]
    rfl
  have e1 : (Re.opt (.grp 1 (.cls isConsonant))).run (c :: cs) = [(cs, [(1, [c])]), (c :: cs, [])] := by
    simp [Re.run, h]
  unfold reHead
  rw [Re.run, e1]
  simp only [List.flatMap_cons, List.flatMap_nil, e, List.append_nil, List.map_append, List.map_map, Function.comp_def,
    List.map_id', true_and]
  intro x hx
  rcases List.mem_append.1 hx with hx | hx <;> obtain ⟨r, -, rfl⟩ := List.mem_map.1 hx <;> simp [List.lookup]

theorem peel_mem (s : Str) : ∀ r ∈ peel s, ∀ x ∈ r, x ∈ s := by
  induction s using peel.induct with
  | case1 a b r hi ih =>
    intro q hq x hx
    rw [peel, if_pos hi] at hq
    rcases List.mem_append.mp hq with hq | hq
    · have := ih q hq x hx
      simp [this]
    · simp at hq; subst hq; exact hx
  | case2 a b r hi =>
    intro q hq x hx
    rw [peel, if_neg hi] at hq
    simp at hq; subst hq; exact hx
  | case3 s h =>
    intro q hq x hx
    match s, h with
    | [], _ => simp [peel] at hq; subst hq; exact hx
    | [a], _ => simp [peel] at hq; subst hq; exact hx
    | a :: b :: r, h => exact absurd rfl (h a b r)

theorem long_verdict {c : Char} {cs : Str} (h : ∀ x ∈ c :: cs, isConsonant x = true) :
    ((reLong.fullmatch (c :: cs)).map (·.get 3)).map judge = (peel cs ++ peel (c :: cs)).findSome? verdict := by
  obtain ⟨h1, h2⟩ := reHead_run (cs := cs) (h c (by simp))
  show (((Re.seq reHead reTail).fullmatch (c :: cs)).map (·.get 3)).map judge = _
  rw [seq_get h2, h1]
  have hp : ∀ r ∈ peel cs ++ peel (c :: cs), ∀ x ∈ r, isConsonant x = true := by
    intro r hr x hx
    rcases List.mem_append.mp hr with hr | hr
    · exact h x (List.mem_cons_of_mem _ (peel_mem cs r hr x hx))
    · exact h x (peel_mem (c :: cs) r hr x hx)
  generalize peel cs ++ peel (c :: cs) = l at hp
  clear h1 h2
  induction l with
  | nil => rfl
  | cons r l ih =>
    have hv := tail_verdict (hp r (by simp))
    have ih := ih (fun x hx => hp x (by simp [hx]))
    rw [List.findSome?_cons, List.findSome?_cons]
    cases hf : reTail.fullmatch r with
    | none => rw [hf] at hv; simp at hv ⊢; rw [← hv]; simpa using ih
    | some g => rw [hf] at hv; simp at hv ⊢; rw [← hv]

theorem isSonorant_iff (c : Char) : isSonorant c = true ↔ Sonorant c := by
  unfold isSonorant Sonorant
  simp

/-- Pairs and an onset. -/
def Sp (s : Str) : Prop := ∃ p o, s = p ++ o ∧ SonorantPairs p ∧ o ≠ [] ∧ isZihevlaInitialCluster o = true

def NoM (s : Str) : Prop := ∀ u c, s = u ++ ['m', c] → INITIAL.contains ['m', c] = false

theorem initial_rows : ∀ p ∈ INITIAL, ∃ a b, p = [a, b] ∧ (isObstruent a = true ∨ (a = 'm' ∧ (b = 'l' ∨ b = 'r'))) := by
  have : ∀ p ∈ INITIAL, (match p with
      | [a, b] => decide (isObstruent a = true ∨ (a = 'm' ∧ (b = 'l' ∨ b = 'r')))
      | _ => false) = true := by
    decide +kernel
  intro p hp
  have := this p hp
  match p, this with
  | [a, b], h => exact ⟨a, b, rfl, of_decide_eq_true h⟩

theorem zihInitial_rows : ∀ p ∈ ZIhEVLA_INITIAL, ∃ a b, p = [a, b] ∧ isSonorant b = true ∧
    (isSonorant a = true → a = 'm') ∧ [a, b] ∈ INITIAL := by
  have : ∀ p ∈ ZIhEVLA_INITIAL, (match p with
      | [a, b] => decide (isSonorant b = true ∧ (isSonorant a = true → a = 'm') ∧ [a, b] ∈ INITIAL)
      | _ => false) = true := by
    decide +kernel
  intro p hp
  have := this p hp
  match p, this with
  | [a, b], h => exact ⟨a, b, rfl, of_decide_eq_true h⟩

theorem obstruent_not_sonorant {c : Char} (h : isObstruent c = true) : isSonorant c = false := by
  have h' : c ∈ (s%"bcdfgjkpstvxz") := by simpa [isObstruent] using h
  have : ∀ c ∈ (s%"bcdfgjkpstvxz"), isSonorant c = false := by decide
  exact this c h'

theorem ini2 {a b : Char} (h : isZihevlaInitialCluster [a, b] = true) : isObstruent a = true ∨ (a = 'm' ∧ (b = 'l' ∨ b = 'r')) := by
  have : [a, b] ∈ INITIAL := by simpa [isZihevlaInitialCluster] using h
  obtain ⟨_, _, e, h⟩ := initial_rows _ this
  cases e
  exact h

theorem ini3 {a b c : Char} (h : isZihevlaInitialCluster [a, b, c] = true) :
    isObstruent a = true ∧ isSonorant c = true ∧ (isSonorant b = true → b = 'm') ∧ [b, c] ∈ INITIAL := by
  have : [a, b] ∈ INITIAL ∧ [b, c] ∈ ZIhEVLA_INITIAL := by simpa [isZihevlaInitialCluster, slice] using h
  obtain ⟨_, _, e, h1⟩ := initial_rows _ this.1
  cases e
  obtain ⟨_, _, e, h2, h3, h4⟩ := zihInitial_rows _ this.2
  cases e
  refine ⟨?_, h2, h3, h4⟩
  rcases h1 with h1 | ⟨rfl, h1⟩
  · exact h1
  · exfalso
    rcases h1 with rfl | rfl
    · have := h3 (by decide); revert this; decide
    · have := h3 (by decide); revert this; decide

theorem sp_long {a b c d : Char} {t : Str} : Sp (a :: b :: c :: d :: t) ↔
    isConsonant a = true ∧ isSonorant b = true ∧ Sp (c :: d :: t) := by
  constructor
  · rintro ⟨p, o, e, hp, ho, hi⟩
    cases hp with
    | nil =>
      exfalso
      simp at e
      subst e
      simp [isZihevlaInitialCluster] at hi
    | @pair a' b' r h1 h2 h3 =>
      simp at e
      obtain ⟨rfl, rfl, e⟩ := e
      exact ⟨(isConsonant_iff _).2 h1, (isSonorant_iff _).2 h2, r, o, e, h3, ho, hi⟩
  · rintro ⟨h1, h2, p, o, e, hp, ho, hi⟩
    exact ⟨a :: b :: p, o, by simp [e], .pair ((isConsonant_iff _).1 h1) ((isSonorant_iff _).1 h2) hp, ho, hi⟩

theorem sp_unpaired {a b : Char} {t : Str} (h : ¬ (isConsonant a && isSonorant b) = true) :
    Sp (a :: b :: t) ↔ isZihevlaInitialCluster (a :: b :: t) = true := by
  constructor
  · rintro ⟨p, o, e, hp, ho, hi⟩
    cases hp with
    | nil => simp at e; rw [e]; exact hi
    | @pair a' b' r h1 h2 h3 =>
      simp at e
      obtain ⟨rfl, rfl, e⟩ := e
      simp [(isConsonant_iff _).2 h1, (isSonorant_iff _).2 h2] at h
  · intro hi
    exact ⟨[], _, rfl, .nil, by simp, hi⟩

theorem first_iff {s : Str} (hc : ∀ c ∈ s, isConsonant c = true) (hm : NoM s) :
    (peel s).findSome? verdict = some true ↔ Sp s := by
  induction s using peel.induct with
  | case1 a b r hi ih =>
    rw [peel, if_pos hi, List.findSome?_append]
    simp only [Bool.and_eq_true] at hi
    match r, ih with
    | [], _ =>
      simp [peel, verdict]
      constructor
      · rintro ⟨-, h⟩
        exact ⟨[], _, rfl, .nil, by simp, h⟩
      · rintro ⟨p, o, e, hp, ho, h⟩
        cases hp with
        | nil =>
          simp at e; subst e
          refine ⟨?_, h⟩
          rcases ini2 h with h' | ⟨rfl, h'⟩
          · exact h'
          · have := hm [] b rfl
            rcases h' with rfl | rfl <;> revert this <;> decide
        | pair => simp at e; rw [e.2.2.2] at ho; exact absurd rfl ho
    | [c], _ =>
      simp [peel, verdict]
      exact ⟨[a, b], [c], rfl, .pair ((isConsonant_iff _).1 hi.1) ((isSonorant_iff _).1 hi.2) .nil, by simp, rfl⟩
    | c :: d :: t, ih =>
      rw [sp_long, ← ih (fun x hx => hc x (by simp at hx ⊢; grind)) (fun u x e => hm (a :: b :: u) x (by rw [e]; rfl))]
      simp [verdict, hi]
  | case2 a b r hi =>
    rw [peel, if_neg hi, sp_unpaired hi]
    match r with
    | [] =>
      simp [verdict]
      intro h
      rcases ini2 h with h' | ⟨rfl, h'⟩
      · exact h'
      · have := hm [] b rfl
        rcases h' with rfl | rfl <;> revert this <;> decide
    | [c] =>
      simp [verdict]
      intro h
      exact ⟨(ini3 h).1, (ini3 h).2.1⟩
    | c :: d :: t => simp [verdict, isZihevlaInitialCluster]
  | case3 s h =>
    match s, h with
    | [], _ =>
      simp [peel, verdict]
      rintro ⟨p, o, e, hp, ho, -⟩
      simp at e
      exact ho e.2
    | [a], _ =>
      simp [peel, verdict]
      exact ⟨[], [a], rfl, .nil, by simp, rfl⟩
    | a :: b :: r, h => exact absurd rfl (h a b r)

theorem first_false (c : Char) {cs : Str} (hl : 3 ≤ cs.length)
    (h : (peel cs).findSome? verdict = some false) : ¬ Sp (c :: cs) := by
  induction cs using peel.induct generalizing c with
  | case1 a b r hi ih =>
    intro hs
    rw [peel, if_pos hi, List.findSome?_append] at h
    simp only [Bool.and_eq_true] at hi
    match r, ih with
    | [], _ => simp at hl
    | [d], _ => simp [peel, verdict] at h
    | [d, e], _ =>
      have hs := (sp_long.mp hs).2.2
      have hd : isObstruent d = true := by
        simp only [peel] at h
        cases hd : isObstruent d with
        | true => rfl
        | false => split at h <;> simp [peel, verdict, List.findSome?_cons, hd] at h
      obtain ⟨p, o, e1, hp, ho, hi'⟩ := hs
      cases hp with
      | nil =>
        simp at e1; subst e1
        have := obstruent_not_sonorant (ini3 hi').1
        simp [hi.2] at this
      | pair h1 h2 h3 =>
        simp at e1
        obtain ⟨rfl, rfl, _⟩ := e1
        have h2 := (isSonorant_iff _).2 h2
        simp [obstruent_not_sonorant hd] at h2
    | d :: e :: f :: t, ih =>
      simp [verdict] at h
      exact ih b (by simp) h (sp_long.mp hs).2.2
  | case2 a b r hi =>
    intro hs
    rw [peel, if_neg hi] at h
    match r with
    | [] => simp at hl
    | [d] =>
      simp [verdict] at h
      have := (sp_long.mp hs).2.1
      simp [obstruent_not_sonorant h.1.1] at this
    | d :: e :: t => simp [verdict] at h
  | case3 s h' =>
    exfalso
    clear h
    match s, h', hl with
    | a :: b :: r, h, _ => exact h a b r rfl

/-- With four or more consonants that do not end in `ml` or `mr`. -/
theorem long_iff {c : Char} {cs : Str} (hc : ∀ x ∈ c :: cs, isConsonant x = true) (hl : 3 ≤ cs.length)
    (hm : NoM (c :: cs)) :
    ((peel cs ++ peel (c :: cs)).findSome? verdict).getD false = true ↔ Sp cs ∨ Sp (c :: cs) := by
  have hm' : NoM cs := fun u x e => hm (c :: u) x (by rw [e]; rfl)
  have h1 := first_iff (fun x hx => hc x (List.mem_cons_of_mem _ hx)) hm'
  have h2 := first_iff hc hm
  rw [List.findSome?_append]
  cases hf : (peel cs).findSome? verdict with
  | none =>
    rw [hf] at h1
    simp only [Option.none_or]
    rw [← h2]
    have : ¬ Sp cs := fun h => by simpa using h1.mpr h
    simp only [this, false_or]
    cases (peel (c :: cs)).findSome? verdict <;> simp
  | some v =>
    rw [hf] at h1
    cases v with
    | true => simpa using Or.inl (h1.mp rfl)
    | false =>
      have h3 := first_false c hl hf
      have : ¬ Sp cs := fun h => by simpa using h1.mpr h
      simp [h3, this]


theorem zihInitial_iff (a b : Char) : [a, b] ∈ ZIhEVLA_INITIAL ↔
    InitialPair a b ∧ (b = 'l' ∨ b = 'r') ∧ ¬ Sibilant a ∧ a ≠ 'x' := by
  have h1 : ∀ p ∈ ZIhEVLA_INITIAL, (match p with
      | [a, b] => decide (InitialPair a b ∧ (b = 'l' ∨ b = 'r') ∧ ¬ Sibilant a ∧ a ≠ 'x')
      | _ => false) = true := by
    decide +kernel
  have h2 : ∀ p ∈ initialPairs, (match p with
      | [a, b] => decide ((b = 'l' ∨ b = 'r') ∧ ¬ Sibilant a ∧ a ≠ 'x' → [a, b] ∈ ZIhEVLA_INITIAL)
      | _ => false) = true := by
    decide +kernel
  constructor
  · intro h
    exact of_decide_eq_true (h1 _ h)
  · rintro ⟨h, h'⟩
    exact of_decide_eq_true (h2 _ h) h'

/-- `is_zihevla_initial_cluster`. -/
theorem initial_iff {ch : Str} (hc : ∀ x ∈ ch, isConsonant x = true) (hne : ch ≠ []) :
    isZihevlaInitialCluster ch = true ↔ InitialCluster ch := by
  constructor
  · intro h
    match ch with
    | [] => exact absurd rfl hne
    | [a] => exact .one ((isConsonant_iff _).1 (hc a (by simp)))
    | [a, b] =>
      exact .two (initial_contains.1 (by simpa [isZihevlaInitialCluster] using h))
    | [a, b, c] =>
      simp [isZihevlaInitialCluster, slice] at h
      obtain ⟨h1, h2, h3, h4⟩ := (zihInitial_iff _ _).1 h.2
      exact .three (initial_contains.1 (by simpa using h.1)) h1 h2 h3 h4
    | a :: b :: c :: d :: t => simp [isZihevlaInitialCluster] at h
  · intro h
    cases h with
    | one => rfl
    | two h => simpa [isZihevlaInitialCluster] using initial_contains.2 h
    | three h1 h2 h3 h4 h5 =>
      have e1 := initial_contains.2 h1
      have e2 := (zihInitial_iff _ _).2 ⟨h2, h3, h4, h5⟩
      simp at e1
      simp [isZihevlaInitialCluster, slice, e1, e2]

theorem initialCluster_ne {o : Str} (h : InitialCluster o) : o ≠ [] := by
  cases h <;> simp

theorem sp_iff {s : Str} (hc : ∀ x ∈ s, isConsonant x = true) :
    Sp s ↔ ∃ p o, s = p ++ o ∧ SonorantPairs p ∧ InitialCluster o := by
  constructor
  · rintro ⟨p, o, e, hp, ho, hi⟩
    exact ⟨p, o, e, hp, (initial_iff (fun x hx => hc x (by rw [e]; simp [hx])) ho).1 hi⟩
  · rintro ⟨p, o, e, hp, hi⟩
    exact ⟨p, o, e, hp, initialCluster_ne hi, (initial_iff (fun x hx => hc x (by rw [e]; simp [hx])) (initialCluster_ne hi)).2 hi⟩

/-- A consonant or none, and pairs. -/
def Front (s : Str) : Prop := ∃ pre p, s = pre ++ p ∧ pre.length ≤ 1 ∧ SonorantPairs p

theorem peel_nil {s : Str} (hc : ∀ x ∈ s, isConsonant x = true) : [] ∈ peel s ↔ SonorantPairs s := by
  induction s using peel.induct with
  | case1 a b r hi ih =>
    rw [peel, if_pos hi]
    simp only [Bool.and_eq_true] at hi
    have ih := ih fun x hx => hc x (by simp [hx])
    simp only [List.mem_append, ih, List.mem_singleton]
    constructor
    · rintro (h | h)
      · exact .pair ((isConsonant_iff _).1 hi.1) ((isSonorant_iff _).1 hi.2) h
      · cases h
    · intro h
      cases h with
      | pair _ _ h => exact .inl h
  | case2 a b r hi =>
    rw [peel, if_neg hi]
    simp only [List.mem_singleton]
    constructor
    · intro h; cases h
    · intro h
      cases h with
      | pair h1 h2 h => simp [(isConsonant_iff _).2 h1, (isSonorant_iff _).2 h2] at hi
  | case3 s h =>
    match s, h with
    | [], _ => simp [peel]; exact .nil
    | [a], _ => simp [peel]; intro h; cases h
    | a :: b :: r, h => exact absurd rfl (h a b r)

theorem reShort_run {c : Char} {cs : Str} (h : isConsonant c = true) :
    (∀ x ∈ reShort.run (c :: cs), x.2.lookup 1 = none ∨ x.2.lookup 1 = some [c]) ∧
    ∀ r, (∃ x ∈ reShort.run (c :: cs), x.1 = r) ↔ r ∈ peel cs ∨ r = cs ∨ r ∈ peel (c :: cs) ∨ r = c :: cs := by
  have e : ∀ s : Str, (Re.opt (Re.grp 2 (.star (.seq (.cls isConsonant) (.cls isSonorant))))).run s =
      (peel s).map (fun r => (r, [(2, s.take (s.length - r.length))])) ++ [(s, [])] := by
    intro s
    rw [Re.run, Re.run, Re.run, starRun_peel (Nat.le_refl _), List.map_map]
    rfl
  have e1 : (Re.opt (.grp 1 (.cls isConsonant))).run (c :: cs) = [(cs, [(1, [c])]), (c :: cs, [])] := by
    simp [Re.run, h]
  unfold reShort
  rw [Re.run, e1]
  simp only [List.flatMap_cons, List.flatMap_nil, e, List.append_nil, List.map_append, List.map_map, Function.comp_def]
  constructor
  · intro x hx
    simp at hx
    rcases hx with ⟨r, -, rfl⟩ | rfl | ⟨r, -, rfl⟩ | rfl <;> simp [List.lookup]
  · intro r
    constructor
    · rintro ⟨x, hx, rfl⟩
      simp at hx
      rcases hx with ⟨r, hr, rfl⟩ | rfl | ⟨r, hr, rfl⟩ | rfl <;> simp [*]
    · rintro (hr | rfl | hr | rfl)
      · exact ⟨(r, _), by simp only [List.mem_append, List.mem_map]; exact .inl (.inl ⟨r, hr, rfl⟩), rfl⟩
      · exact ⟨(r, _), by simp only [List.mem_append, List.mem_map, List.map_cons]; exact .inl (.inr (List.mem_singleton.2 rfl)), rfl⟩
      · exact ⟨(r, _), by simp only [List.mem_append, List.mem_map]; exact .inr (.inl ⟨r, hr, rfl⟩), rfl⟩
      · exact ⟨(c :: cs, _), by simp only [List.mem_append, List.mem_map, List.map_cons]; exact .inr (.inr (List.mem_singleton.2 rfl)), rfl⟩

/-- The short expression. -/
theorem short_verdict {s : Str} (hc : ∀ x ∈ s, isConsonant x = true) (hne : s ≠ []) :
    (match (reShort.fullmatch s).map (·.get 1) with
      | none => false | some (some g) => isZihevlaInitialCluster g | some none => true) = true ↔ Front s := by
  match s, hne with
  | c :: cs, _ =>
    obtain ⟨h1, h2⟩ := reShort_run (cs := cs) (hc c (by simp))
    have hf : Front (c :: cs) ↔ ∃ x ∈ reShort.run (c :: cs), x.1 = [] := by
      rw [h2, peel_nil (fun x hx => hc x (by simp [hx])), peel_nil hc]
      constructor
      · rintro ⟨pre, p, e, hl, hp⟩
        match pre, hl with
        | [], _ => simp at e; rw [e]; exact .inr (.inr (.inl hp))
        | [a], _ => simp at e; rw [e.2]; exact .inl hp
      · rintro (h | h | h | h)
        · exact ⟨[c], cs, rfl, by simp, h⟩
        · subst h; exact ⟨[c], [], rfl, by simp, .nil⟩
        · exact ⟨[], c :: cs, rfl, by simp, h⟩
        · cases h
    rw [hf]
    unfold Re.fullmatch Groups.get
    cases hfd : (reShort.run (c :: cs)).find? (fun x => x.1.isEmpty) with
    | none =>
      simp only [Option.map_none, Bool.false_eq_true, false_iff]
      rintro ⟨x, hx, e⟩
      have := List.find?_eq_none.1 hfd x hx
      simp [e] at this
    | some x =>
      have hm := List.mem_of_find?_eq_some hfd
      have hp := List.find?_some hfd
      have : ∃ x ∈ reShort.run (c :: cs), x.1 = [] := ⟨x, hm, by simpa using hp⟩
      simp only [Option.map_some, this, iff_true]
      rcases h1 x hm with e | e <;> rw [e]
      rfl

theorem pairs_last {p : Str} (h : SonorantPairs p) (hne : p ≠ []) : ∃ c, p.getLast? = some c ∧ Sonorant c := by
  induction h with
  | nil => exact absurd rfl hne
  | @pair a b r _ hb _ ih =>
    by_cases hr : r = []
    · subst hr; exact ⟨b, rfl, hb⟩
    · obtain ⟨c, h1, h2⟩ := ih hr
      exact ⟨c, by rw [List.getLast?_cons, List.getLast?_cons, h1]; rfl, h2⟩

theorem splits {ch : Str} {c : Char} {cs : Str} (e : ch = c :: cs) (hc : ∀ x ∈ ch, isConsonant x = true) :
    Sp cs ∨ Sp ch ↔ ∃ pre pairs onset, ch = pre ++ pairs ++ onset ∧ pre.length ≤ 1 ∧ SonorantPairs pairs ∧ InitialCluster onset := by
  subst e
  rw [sp_iff (fun x hx => hc x (by simp [hx])), sp_iff hc]
  constructor
  · rintro (⟨p, o, e, hp, ho⟩ | ⟨p, o, e, hp, ho⟩)
    · exact ⟨[c], p, o, by simp [e], by simp, hp, ho⟩
    · exact ⟨[], p, o, by simp [e], by simp, hp, ho⟩
  · rintro ⟨pre, p, o, e, hl, hp, ho⟩
    match pre, hl with
    | [], _ => exact .inr ⟨p, o, by simpa using e, hp, ho⟩
    | [a], _ => simp at e; exact .inl ⟨p, o, e.2, hp, ho⟩

def groupOk : Option (Option Str) → Bool
  | none => false
  | some (some g) => isZihevlaInitialCluster g
  | some none => true

theorem groupOk_judge (o : Option (Option Str)) : groupOk o = (o.map judge).getD false := by
  rcases o with _ | _ | g <;> rfl

theorem middle_long {f : Str} {x y z : Char} (hf : f ≠ []) : isZihevlaMiddleCluster (f ++ [x, y, z]) =
    if y = 'm' ∧ INITIAL.contains [y, z] = true then
      if isZihevlaInitialCluster [x, y, z] = true then groupOk ((reShort.fullmatch f).map (·.get 1))
      else groupOk ((reShort.fullmatch (f ++ [x])).map (·.get 1))
    else groupOk ((reLong.fullmatch (f ++ [x, y, z])).map (·.get 3)) := by
  have h0 : 0 < f.length := List.length_pos_iff.2 hf
  have h1 : (f ++ [x, y, z])[(f ++ [x, y, z]).length - 2]? = some y := by
    rw [List.getElem?_append_right (by simp)]
    simp
  have h2 : lastN (f ++ [x, y, z]) 2 = [y, z] := by
    unfold lastN
    have : (f ++ [x, y, z]).length - 2 = (f ++ [x]).length := by simp
    rw [this, show f ++ [x, y, z] = (f ++ [x]) ++ [y, z] by simp, List.drop_left]
  have h3 : lastN (f ++ [x, y, z]) 3 = [x, y, z] := by
    unfold lastN
    have : (f ++ [x, y, z]).length - 3 = f.length := by simp
    rw [this, List.drop_left]
  have h4 : dropLastN (f ++ [x, y, z]) 2 = f ++ [x] := by
    unfold dropLastN
    have : (f ++ [x, y, z]).length - 2 = (f ++ [x]).length := by simp
    rw [this, show f ++ [x, y, z] = (f ++ [x]) ++ [y, z] by simp, List.take_left]
  have h5 : dropLastN (f ++ [x, y, z]) 3 = f := by
    unfold dropLastN
    have : (f ++ [x, y, z]).length - 3 = f.length := by simp
    rw [this, List.take_left]
  unfold isZihevlaMiddleCluster
  rw [if_neg (by simp; omega), if_neg (by simp)]
  simp only [h1, h2, h3, h4, h5, Option.some.injEq]
  change groupOk _ = _
  split
  · split <;> rfl
  · rfl

theorem last_three {ch : Str} (h : 4 ≤ ch.length) : ∃ f x y z, ch = f ++ [x, y, z] ∧ f ≠ [] := by
  have e := (List.take_append_drop (ch.length - 3) ch).symm
  have hl : (ch.drop (ch.length - 3)).length = 3 := by simp; omega
  match hd : ch.drop (ch.length - 3), hl with
  | [x, y, z], _ =>
    rw [hd] at e
    refine ⟨_, x, y, z, e, ?_⟩
    intro h0
    have := congrArg List.length h0
    simp at this
    omega

/-- `is_zihevla_middle_cluster`. -/
theorem middle_iff {mz : Bool} {ch : Str} (hc : ∀ x ∈ ch, isConsonant x = true)
    (hp : ∀ a b t, ch = a :: b :: t → PermissiblePair mz a b) : isZihevlaMiddleCluster ch = true ↔ MiddleCluster ch := by
  by_cases h3 : ch.length = 3
  · match ch, h3 with
    | [x, y, z], _ =>
      have hxy := hp x y [z] rfl
      have hx := (isConsonant_iff _).1 (hc x (by simp))
      have hz := (isConsonant_iff _).1 (hc z (by simp))
      unfold isZihevlaMiddleCluster MiddleCluster
      simp only [List.length_cons, List.length_nil, if_true, List.getElem?_cons_succ, List.getElem?_cons_zero]
      by_cases hs : isSonorant y = true
      · simp only [hs, if_true, true_iff]
        refine .inr ⟨?_, ?_⟩
        · by_cases hm : EndsMlMr [x, y, z]
          · obtain ⟨u, c, hlr, e⟩ := hm
            obtain ⟨-, e⟩ := List.append_inj' (show [x] ++ [y, z] = u ++ ['m', c] from e) rfl
            cases e
            exact ⟨[x], [], ['m', z], rfl, by simp, .nil, .two (by rcases hlr with rfl | rfl <;> decide), by simp⟩
          · exact ⟨[], [x, y], [z], rfl, by simp, .pair hx ((isSonorant_iff _).1 hs) .nil, .one hz, fun h => hm h.2⟩
        · rintro c ⟨⟩
          exact absurd hs (by decide)
      · simp only [hs, if_false, Bool.and_eq_true, slice, Bool.false_eq_true]
        rw [show (List.take 2 [x, y, z]).drop 0 = [x, y] from rfl, show List.drop 1 [x, y, z] = [y, z] from rfl, initial_contains,
          show VALID = validPairs false from rfl, validPairs_contains]
        constructor
        · rintro ⟨h1, h2⟩
          refine .inr ⟨⟨[x], [], [y, z], rfl, by simp, .nil, .two h2, by simp⟩, ?_⟩
          rintro c ⟨⟩
          exact absurd h1 (by decide)
        · rintro (h | ⟨⟨pre, p, o, e, h1, h2, h3, h4⟩, h5⟩)
          · omega
          · refine ⟨?_, ?_⟩
            · obtain ⟨a1, a2, a3, a4, a5, a6, a7, a8⟩ := hxy
              refine ⟨a1, a2, a3, a4, a5, a6, a7, ?_⟩
              rintro ⟨⟩
              exact absurd rfl (h5 z)
            · match pre, h1 with
              | [], _ =>
                cases h2 with
                | nil =>
                  simp at e
                  cases h3 with
                  | one => simp at e
                  | two => simp at e
                  | three _ h => simp at e; obtain ⟨rfl, rfl, rfl⟩ := e; exact h
                | pair _ h => simp at e; obtain ⟨rfl, rfl, -⟩ := e; exact absurd ((isSonorant_iff _).2 h) hs
              | [a], _ =>
                cases h2 with
                | nil =>
                  simp at e
                  cases h3 with
                  | one => simp at e
                  | two h => simp at e; obtain ⟨rfl, rfl, rfl⟩ := e; exact h
                  | three _ h => simp at e
                | pair _ h => simp at e; exact absurd e.2.2.2.2 (initialCluster_ne h3)
  · by_cases h2 : ch.length < 3
    · unfold isZihevlaMiddleCluster MiddleCluster
      simp [h3, h2]; left; omega
    · have h4 : 4 ≤ ch.length := by omega
      have e1 : ¬ ch.length ≤ 2 := by omega
      have e2 : ∀ c, ch ≠ ['m', 'z', c] := by rintro c rfl; simp at h4
      obtain ⟨f, x, y, z, rfl, hf⟩ := last_three h4
      rw [middle_long hf]
      unfold MiddleCluster
      simp only [e1, false_or, e2, ne_eq, not_false_eq_true, implies_true, and_true]
      clear hp h3 h2 e1 e2
      split
      · rename_i hm
        have hm' := initial_contains.1 hm.2
        obtain ⟨rfl, hm⟩ := hm
        have hlr : z = 'l' ∨ z = 'r' := by
          rcases ini2 (a := 'm') (b := z) (by simpa [isZihevlaInitialCluster] using hm) with h | h
          · exact absurd h (by decide)
          · exact h.2
        have hends : EndsMlMr (f ++ [x, 'm', z]) := ⟨f ++ [x], z, hlr, by simp⟩
        simp only [hends, and_true]
        split
        · rename_i hi
          rw [show groupOk _ = true ↔ _ from short_verdict (fun c h => hc c (by simp [h])) hf]
          have hi' := (initial_iff (fun c h => hc c (by simp [h])) (by simp)).1 hi
          constructor
          · rintro ⟨pre, p, rfl, h1, h2⟩
            exact ⟨pre, p, _, rfl, h1, h2, hi', by simp⟩
          · rintro ⟨pre, p, o, e, h1, h2, h3, h4⟩
            cases h3 with
            | one => simp at h4
            | @two a b h =>
              obtain ⟨e1, -⟩ := List.append_inj' (show (f ++ [x]) ++ ['m', z] = (pre ++ p) ++ [a, b] by simpa using e) rfl
              have hpn : p ≠ [] := by
                rintro rfl
                have := congrArg List.length e1
                have := List.length_pos_iff.2 hf
                simp at *
                omega
              obtain ⟨c, h5, h6⟩ := pairs_last h2 hpn
              have := congrArg List.getLast? e1
              rw [getLast?_append_ne _ hpn, h5] at this
              simp at this
              subst this
              have h7 := obstruent_not_sonorant (ini3 hi).1
              rw [(isSonorant_iff _).2 h6] at h7
              cases h7
            | @three a b c =>
              obtain ⟨e1, -⟩ := List.append_inj' e rfl
              exact ⟨pre, p, e1, h1, h2⟩
        · rename_i hi
          rw [show groupOk _ = true ↔ _ from short_verdict (fun c h => hc c (by simp at h ⊢; grind)) (by simp)]
          constructor
          · rintro ⟨pre, p, e, h1, h2⟩
            exact ⟨pre, p, ['m', z], by rw [← e]; simp, h1, h2, .two hm', by simp⟩
          · rintro ⟨pre, p, o, e, h1, h2, h3, h4⟩
            cases h3 with
            | one => simp at h4
            | @two a b h =>
              obtain ⟨e1, -⟩ := List.append_inj' (show (f ++ [x]) ++ ['m', z] = (pre ++ p) ++ [a, b] by simpa using e) rfl
              exact ⟨pre, p, e1, h1, h2⟩
            | @three a b c i3 i4 i5 i6 i7 =>
              obtain ⟨-, e1⟩ := List.append_inj' e rfl
              rw [e1] at hi
              refine absurd ((initial_iff (fun c h => hc c ?_) (by simp)).2 (.three i3 i4 i5 i6 i7)) hi
              rw [e]
              simp only [List.mem_append, h, or_true]
      · rename_i hm
        have hnm : NoM (f ++ [x, y, z]) := by
          intro u c e
          have := List.append_inj' (show (f ++ [x]) ++ [y, z] = u ++ ['m', c] by simpa using e) rfl
          simp at this
          obtain ⟨-, rfl, rfl⟩ := this
          simpa using hm
        have hends : ¬ EndsMlMr (f ++ [x, y, z]) := by
          rintro ⟨u, c, hc, e⟩
          have := hnm u c e
          rcases hc with rfl | rfl <;> revert this <;> decide
        simp only [hends, and_false, not_false_eq_true, and_true]
        match f, hf with
        | c :: f, _ =>
          rw [groupOk_judge, List.cons_append, long_verdict (c := c) (cs := f ++ [x, y, z]) hc, long_iff (c := c) (cs := f ++ [x, y, z]) hc (by simp) hnm]
          exact splits rfl hc

end Jvotci
