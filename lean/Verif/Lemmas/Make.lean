import Verif.SpecMake
import Verif.Lemmas.Shape

/-!
# The steps of `make_rafsi_list.py`
-/

namespace Jvotci

open Spec

theorem exists_mem_cons' {α : Type} {p : α → Prop} {a : α} {l : List α} : (∃ x, x ∈ a :: l ∧ p x) ↔ p a ∨ ∃ x, x ∈ l ∧ p x := by
  simp only [List.mem_cons, or_and_right, exists_or, exists_eq_left]

/-- `d.get(w, set())`. -/
def dictGet (d : RafsiSets) (w : Str) : List Str := (d.lookup w).getD []

theorem lookup_map_set {w w' : Str} {s : List Str} : ∀ {d : RafsiSets},
    (d.map (fun e => if e.1 = w then (e.1, s) else e)).lookup w' =
      if w' = w then (d.lookup w).map (fun _ => s) else d.lookup w' := by
  intro d
  induction d with
  | nil => simp
  | cons e d ih =>
    obtain ⟨k, x⟩ := e
    rw [List.map_cons]
    by_cases hk : k = w
    · subst hk
      by_cases hw : w' = k
      · subst hw; simp [List.lookup]
      · have : (w' == k) = false := by simp [hw]
        simp only [if_true, List.lookup, this, ih, if_neg hw]
    · rw [if_neg hk]
      by_cases hw : w' = k
      · subst hw; simp [List.lookup, hk]
      · have : (w' == k) = false := by simp [hw]
        simp only [List.lookup, this, ih]
        have : (w == k) = false := by simp [Ne.symm hk]
        simp only [this]

theorem lookup_append {d d' : RafsiSets} {w : Str} : (d ++ d').lookup w = (d.lookup w).or (d'.lookup w) := by
  induction d with
  | nil => simp
  | cons e d ih =>
    obtain ⟨k, x⟩ := e
    by_cases h : w == k <;> simp [List.lookup, h, ih]

theorem lookup_none_iff {d : RafsiSets} {w : Str} : d.lookup w = none ↔ w ∉ d.map Prod.fst := by
  induction d with
  | nil => simp
  | cons e d ih =>
    obtain ⟨k, x⟩ := e
    by_cases h : w = k
    · subst h; simp [List.lookup]
    · have : (w == k) = false := by simp [h]
      simp [List.lookup, this, ih, h]

theorem any_key {d : RafsiSets} {w : Str} : d.any (fun e => e.1 == w) = true ↔ w ∈ d.map Prod.fst := by
  simp

theorem lookup_dictSet {d : RafsiSets} {w w' : Str} {s : List Str} : (dictSet d w s).lookup w' = if w' = w then some s else d.lookup w' := by
  unfold dictSet
  split
  · rename_i h
    rw [lookup_map_set]
    split
    · have : d.lookup w ≠ none := fun h' => lookup_none_iff.1 h' (any_key.1 h)
      cases hd : d.lookup w with
      | none => exact absurd hd this
      | some x => rfl
    · rfl
  · rename_i h
    rw [lookup_append]
    have : d.lookup w = none := lookup_none_iff.2 (fun h' => h (any_key.2 h'))
    by_cases hw : w' = w
    · subst hw; simp [this, List.lookup]
    · have : (w' == w) = false := by simp [hw]
      simp [List.lookup, this, hw]

theorem keys_dictSet {d : RafsiSets} {w : Str} {s : List Str} (h : (d.map Prod.fst).Nodup) : ((dictSet d w s).map Prod.fst).Nodup := by
  unfold dictSet
  split
  · rw [List.map_map]
    have : (Prod.fst ∘ fun e : Str × List Str => if e.1 = w then (e.1, s) else e) = Prod.fst := by
      funext e
      simp only [Function.comp]
      split <;> rfl
    rw [this]
    exact h
  · rename_i h'
    rw [List.map_append, List.nodup_append]
    refine ⟨h, by simp, ?_⟩
    intro a ha b hb e
    simp at hb
    subst e hb
    exact h' (any_key.2 ha)

theorem keys_dictAdd {d : RafsiSets} {w r : Str} (h : (d.map Prod.fst).Nodup) : ((dictAdd d w r).map Prod.fst).Nodup := by
  unfold dictAdd
  split <;> exact keys_dictSet h

theorem mem_setAdd {s : List Str} {x y : Str} : y ∈ setAdd s x ↔ y ∈ s ∨ y = x := by
  unfold setAdd
  split
  · constructor
    · exact .inl
    · rintro (h | rfl) <;> assumption
  · simp

theorem nodup_setAdd {s : List Str} {x : Str} (h : s.Nodup) : (setAdd s x).Nodup := by
  unfold setAdd
  split
  · exact h
  · rename_i hx
    rw [List.nodup_append]
    refine ⟨h, by simp, ?_⟩
    intro a ha b hb e
    simp at hb
    subst e hb
    exact hx ha

theorem lookup_dictAdd {d : RafsiSets} {w w' r : Str} : (dictAdd d w r).lookup w' = if w' = w then some (setAdd (dictGet d w) r) else d.lookup w' := by
  unfold dictAdd dictGet
  split <;> rename_i h
  · rw [lookup_dictSet, h]; rfl
  · rw [lookup_dictSet, h]; rfl

theorem get_dictSet {d : RafsiSets} {w w' : Str} {s : List Str} : dictGet (dictSet d w s) w' = if w' = w then s else dictGet d w' := by
  unfold dictGet
  rw [lookup_dictSet]
  split <;> rfl

theorem get_dictAdd {d : RafsiSets} {w w' r x : Str} : x ∈ dictGet (dictAdd d w r) w' ↔ x ∈ dictGet d w' ∨ (w' = w ∧ x = r) := by
  rw [dictGet, lookup_dictAdd]
  by_cases h : w' = w
  · subst h
    rw [if_pos rfl, Option.getD_some, mem_setAdd]
    simp
  · rw [if_neg h]
    simp [dictGet, h]

/-- A dictionary of sets: no key and no member occurs twice. -/
structure GoodDict (d : RafsiSets) : Prop where
  keys : (d.map Prod.fst).Nodup
  sets : ∀ w s, d.lookup w = some s → s.Nodup

theorem goodDict_nil : GoodDict [] := ⟨by simp, by simp⟩

theorem goodDict_set {d : RafsiSets} {w : Str} (h : GoodDict d) : GoodDict (dictSet d w []) := by
  refine ⟨keys_dictSet h.keys, ?_⟩
  intro w' s
  rw [lookup_dictSet]
  split
  · intro e; cases e; simp
  · exact h.sets w' s

theorem goodDict_add {d : RafsiSets} {w r : Str} (h : GoodDict d) : GoodDict (dictAdd d w r) := by
  refine ⟨keys_dictAdd h.keys, ?_⟩
  intro w' s
  rw [lookup_dictAdd]
  split
  · intro e
    cases e
    refine nodup_setAdd ?_
    unfold dictGet
    cases hd : d.lookup w with
    | none => simp
    | some x => exact h.sets w x hd
  · exact h.sets w' s

theorem dict_lookup_of_mem {d : RafsiSets} {w : Str} {s : List Str} (h : (d.map Prod.fst).Nodup) (hm : (w, s) ∈ d) : d.lookup w = some s := by
  induction d with
  | nil => cases hm
  | cons e d ih =>
    obtain ⟨k, x⟩ := e
    rw [List.map_cons, List.nodup_cons] at h
    rcases List.mem_cons.1 hm with e | hm'
    · cases e; simp [List.lookup]
    · have hne : w ≠ k := by
        rintro rfl
        exact h.1 (List.mem_map.2 ⟨_, hm', rfl⟩)
      have : (w == k) = false := by simp [hne]
      simp only [List.lookup, this]
      exact ih h.2 hm'

theorem mem_of_lookup {d : RafsiSets} {w : Str} {s : List Str} (h : d.lookup w = some s) : (w, s) ∈ d := by
  induction d with
  | nil => simp at h
  | cons e d ih =>
    obtain ⟨k, x⟩ := e
    by_cases hk : w = k
    · subst hk
      simp [List.lookup] at h
      subst h; simp
    · have : (w == k) = false := by simp [hk]
      simp only [List.lookup, this] at h
      exact .tail _ (ih h)

/-- The folds over lists of rafsi. -/
theorem fold_assigned {w : Str} : ∀ {rs : List Str} {st : MakeState}, GoodDict st.rafsiList →
    GoodDict (rs.foldl (addAssigned w) st).rafsiList ∧
    (rs.foldl (addAssigned w) st).expList = st.expList ∧
    (∀ r, r ∈ (rs.foldl (addAssigned w) st).priority ↔ r ∈ st.priority ∨ r ∈ rs) ∧
    (∀ w' r, r ∈ dictGet (rs.foldl (addAssigned w) st).rafsiList w' ↔ r ∈ dictGet st.rafsiList w' ∨ (w' = w ∧ r ∈ rs)) ∧
    (∀ w', (rs.foldl (addAssigned w) st).rafsiList.lookup w' ≠ none ↔ st.rafsiList.lookup w' ≠ none ∨ (w' = w ∧ rs ≠ [])) := by
  intro rs
  induction rs with
  | nil => intro st h; simp [h]
  | cons x rs ih =>
    intro st h
    obtain ⟨h1, h2, h3, h4, h5⟩ := ih (st := addAssigned w st x) (goodDict_add h)
    rw [List.foldl_cons]
    refine ⟨h1, h2, ?_, ?_, ?_⟩
    · intro r
      rw [h3]
      simp only [addAssigned, mem_setAdd, List.mem_cons, or_assoc]
    · intro w' r
      rw [h4]
      simp only [addAssigned, get_dictAdd, List.mem_cons]
      grind
    · intro w'
      rw [h5]
      simp only [addAssigned, lookup_dictAdd]
      by_cases hw : w' = w
      · subst hw; simp
      · simp [hw]

/-- Line 53: a proposed rafsi is not dropped. -/
def Kept (r : Str) : Prop := (r[1]?.any isConsonant && !INITIAL.contains (r.take 2)) = false

theorem fold_proposed {w : Str} : ∀ {rs : List Str} {st : MakeState},
    (rs.foldl (addProposed w) st).rafsiList = st.rafsiList ∧ (rs.foldl (addProposed w) st).priority = st.priority ∧
    (∀ w' r, r ∈ dictGet (rs.foldl (addProposed w) st).expList w' ↔
      r ∈ dictGet st.expList w' ∨ (w' = w ∧ r ∈ rs ∧ Kept r)) := by
  intro rs
  induction rs with
  | nil => intro st; simp
  | cons x rs ih =>
    intro st
    rw [List.foldl_cons]
    obtain ⟨h1, h2, h3⟩ := ih (st := addProposed w st x)
    by_cases hk : Kept x
    · have e : addProposed w st x = { st with expList := dictAdd st.expList w x } := by
        unfold addProposed
        rw [show (x[1]?.any isConsonant && !INITIAL.contains (x.take 2)) = false from hk]
        rfl
      rw [e] at h1 h2 h3 ⊢
      refine ⟨h1, h2, ?_⟩
      intro w' r
      rw [h3, get_dictAdd]
      simp only [List.mem_cons]
      constructor
      · rintro ((h | ⟨h, rfl⟩) | ⟨h, h', h''⟩)
        · exact .inl h
        · exact .inr ⟨h, .inl rfl, hk⟩
        · exact .inr ⟨h, .inr h', h''⟩
      · rintro (h | ⟨h, rfl | h', h''⟩)
        · exact .inl (.inl h)
        · exact .inl (.inr ⟨h, rfl⟩)
        · exact .inr ⟨h, h', h''⟩
    · have e : addProposed w st x = st := by
        unfold addProposed
        rw [show (x[1]?.any isConsonant && !INITIAL.contains (x.take 2)) = true by simpa [Kept] using hk]
        rfl
      rw [e] at h1 h2 h3 ⊢
      refine ⟨h1, h2, ?_⟩
      intro w' r
      rw [h3]
      simp only [List.mem_cons]
      constructor
      · rintro (h | ⟨h, h', h''⟩)
        · exact .inl h
        · exact .inr ⟨h, .inr h', h''⟩
      · rintro (h | ⟨h, rfl | h', h''⟩)
        · exact .inl h
        · exact absurd h'' hk
        · exact .inr ⟨h, h', h''⟩

theorem fold_proposed_good {w : Str} : ∀ {rs : List Str} {st : MakeState}, GoodDict st.expList →
    GoodDict (rs.foldl (addProposed w) st).expList := by
  intro rs
  induction rs with
  | nil => intro st h; exact h
  | cons x rs ih =>
    intro st h
    rw [List.foldl_cons]
    refine ih ?_
    unfold addProposed
    split
    · exact h
    · exact goodDict_add h

/-- The rafsi found in the notes of an entry. -/
def noteRafsi (v : Valsi) : List Str :=
  let notes := v.notes.getD []
  if hasSub s%"rafsi" (lower notes) then findProposals notes.length notes else []

theorem addRafsi_eq (st : MakeState) (v : Valsi) :
    addRafsi st v = (noteRafsi v).foldl (addProposed v.word) (v.rafsi.foldl (addAssigned v.word) st) := by
  unfold addRafsi noteRafsi
  cases h : hasSub s%"rafsi" (lower (v.notes.getD [])) <;> simp [h]

/-- The entry is not skipped. -/
def Taken (gim : List Str) (v : Valsi) : Prop :=
  v.type = s%"gismu" ∨ (v.type = s%"experimental gismu" ∧ v.word.take 4 ∉ gim) ∨ v.type = s%"cmavo" ∨ v.type = s%"experimental cmavo"

/-- The entry makes a key. -/
def TakenGismu (gim : List Str) (v : Valsi) : Prop :=
  v.type = s%"gismu" ∨ (v.type = s%"experimental gismu" ∧ v.word.take 4 ∉ gim)

/-- What one round of the loop does, for a word that has not come before. -/
structure Round (gim : List Str) (st st' : MakeState) (v : Valsi) : Prop where
  good : GoodDict st'.rafsiList
  list : ∀ w r, r ∈ dictGet st'.rafsiList w ↔ r ∈ dictGet st.rafsiList w ∨ (Taken gim v ∧ w = v.word ∧ r ∈ v.rafsi)
  keys : ∀ w, st'.rafsiList.lookup w ≠ none ↔ st.rafsiList.lookup w ≠ none ∨ (w = v.word ∧ (TakenGismu gim v ∨ (Taken gim v ∧ v.rafsi ≠ [])))
  priority : ∀ r, r ∈ st'.priority ↔ r ∈ st.priority ∨ (Taken gim v ∧ r ∈ v.rafsi)
  exp : ∀ w r, r ∈ dictGet st'.expList w ↔ r ∈ dictGet st.expList w ∨ (Taken gim v ∧ w = v.word ∧ r ∈ noteRafsi v ∧ Kept r)

theorem round_step {gim : List Str} {st : MakeState} {v : Valsi} (h : GoodDict st.rafsiList) (hn : st.rafsiList.lookup v.word = none) :
    Round gim st (makeStep gim st v) v := by
  have add : ∀ {st0 : MakeState}, GoodDict st0.rafsiList → st0.expList = st.expList → st0.priority = st.priority →
      (∀ w r, r ∈ dictGet st0.rafsiList w ↔ r ∈ dictGet st.rafsiList w) → Taken gim v →
      (∀ w, st0.rafsiList.lookup w ≠ none ↔ st.rafsiList.lookup w ≠ none ∨ (w = v.word ∧ TakenGismu gim v)) →
      Round gim st (addRafsi st0 v) v := by
    intro st0 hg he hp hl ht hk
    rw [addRafsi_eq]
    obtain ⟨h1, h2, h3, h4, h5⟩ := fold_assigned (w := v.word) (rs := v.rafsi) hg
    obtain ⟨g1, g2, g3⟩ := fold_proposed (w := v.word) (rs := noteRafsi v) (st := v.rafsi.foldl (addAssigned v.word) st0)
    refine ⟨?_, ?_, ?_, ?_, ?_⟩
    · rw [g1]; exact h1
    · intro w r
      rw [g1, h4, hl]
      simp [ht]
    · intro w
      rw [g1, h5, hk]
      constructor
      · rintro ((h | ⟨h, h'⟩) | ⟨h, h'⟩)
        · exact .inl h
        · exact .inr ⟨h, .inl h'⟩
        · exact .inr ⟨h, .inr ⟨ht, h'⟩⟩
      · rintro (h | ⟨h, h' | ⟨-, h'⟩⟩)
        · exact .inl (.inl h)
        · exact .inl (.inr ⟨h, h'⟩)
        · exact .inr ⟨h, h'⟩
    · intro r
      rw [g2, h3, hp]
      simp [ht]
    · intro w r
      rw [g3, h2, he]
      simp [ht]
  have skip : ¬ Taken gim v → Round gim st st v := by
    intro ht
    have ht' : ¬ TakenGismu gim v := fun h => ht (h.elim .inl (fun h => .inr (.inl h)))
    exact ⟨h, by simp [ht], by simp [ht, ht'], by simp [ht], by simp [ht]⟩
  unfold makeStep
  split
  · rename_i htype
    split
    · rename_i hs
      refine skip ?_
      obtain ⟨h1, h2⟩ := hs
      unfold Taken
      rw [h1]
      simp [h2]
    · rename_i hs
      have ht : TakenGismu gim v := by
        rcases htype with h | h
        · exact .inl h
        · exact .inr ⟨h, fun hm => hs ⟨h, hm⟩⟩
      refine add (st0 := { st with rafsiList := dictSet st.rafsiList v.word [] }) (goodDict_set h) rfl rfl ?_ ?_ ?_
      · intro w r
        dsimp only
        rw [get_dictSet]
        split
        · rename_i e; subst e
          simp [dictGet, hn]
        · exact Iff.rfl
      · exact ht.elim .inl (fun h => .inr (.inl h))
      · intro w
        dsimp only
        rw [lookup_dictSet]
        by_cases hw : w = v.word
        · simp [hw, ht]
        · simp [hw]
  · rename_i htype
    have hng : ¬ TakenGismu gim v := by
      rintro (h | ⟨h, -⟩)
      · exact htype (.inl h)
      · exact htype (.inr h)
    split
    · rename_i hc
      refine add h rfl rfl (fun _ _ => Iff.rfl) (.inr (.inr hc)) ?_
      simp [hng]
    · rename_i hc
      refine skip ?_
      rintro (h | ⟨h, -⟩ | h)
      · exact htype (.inl h)
      · exact htype (.inr h)
      · exact hc h

/-- What the first loop does. -/
structure Looped (gim : List Str) (st st' : MakeState) (l : List Valsi) : Prop where
  good : GoodDict st'.rafsiList
  list : ∀ w r, r ∈ dictGet st'.rafsiList w ↔ r ∈ dictGet st.rafsiList w ∨ ∃ v ∈ l, Taken gim v ∧ w = v.word ∧ r ∈ v.rafsi
  keys : ∀ w, st'.rafsiList.lookup w ≠ none ↔ st.rafsiList.lookup w ≠ none ∨ ∃ v ∈ l, w = v.word ∧ (TakenGismu gim v ∨ (Taken gim v ∧ v.rafsi ≠ []))
  priority : ∀ r, r ∈ st'.priority ↔ r ∈ st.priority ∨ ∃ v ∈ l, Taken gim v ∧ r ∈ v.rafsi
  exp : ∀ w r, r ∈ dictGet st'.expList w ↔ r ∈ dictGet st.expList w ∨ ∃ v ∈ l, Taken gim v ∧ w = v.word ∧ r ∈ noteRafsi v ∧ Kept r

theorem loop_steps {gim : List Str} : ∀ {l : List Valsi} {st : MakeState}, GoodDict st.rafsiList → (l.map Valsi.word).Nodup →
    (∀ v ∈ l, st.rafsiList.lookup v.word = none) → Looped gim st (l.foldl (makeStep gim) st) l := by
  intro l
  induction l with
  | nil => intro st h _ _; exact ⟨h, by simp, by simp, by simp, by simp⟩
  | cons v l ih =>
    intro st h hn hk
    rw [List.map_cons, List.nodup_cons] at hn
    have hr := round_step (gim := gim) h (hk v (by simp))
    have h2 := ih (st := makeStep gim st v) hr.good hn.2 (by
      intro v' hv'
      have hne : v'.word ≠ v.word := by
        intro e
        exact hn.1 (List.mem_map.2 ⟨v', hv', e⟩)
      have := hr.keys v'.word
      simp only [hne, false_and, or_false] at this
      have h0 := hk v' (by simp [hv'])
      cases hc : (makeStep gim st v).rafsiList.lookup v'.word with
      | none => rfl
      | some x => exact absurd h0 (this.1 (by rw [hc]; simp)))
    rw [List.foldl_cons]
    refine ⟨h2.good, ?_, ?_, ?_, ?_⟩
    · intro w r; rw [h2.list, hr.list]; simp only [exists_mem_cons', or_assoc]
    · intro w; rw [h2.keys, hr.keys]; simp only [exists_mem_cons', or_assoc]
    · intro r; rw [h2.priority, hr.priority]; simp only [exists_mem_cons', or_assoc]
    · intro w r; rw [h2.exp, hr.exp]; simp only [exists_mem_cons', or_assoc]

theorem loop_exp {gim : List Str} : ∀ {l : List Valsi} {st : MakeState}, GoodDict st.rafsiList → GoodDict st.expList →
    GoodDict (l.foldl (makeStep gim) st).expList := by
  have add : ∀ (st : MakeState) (v : Valsi), GoodDict st.rafsiList → GoodDict st.expList →
      GoodDict (addRafsi st v).rafsiList ∧ GoodDict (addRafsi st v).expList := by
    intro st v h1 h2
    rw [addRafsi_eq]
    have h := fold_assigned (w := v.word) (rs := v.rafsi) h1
    refine ⟨?_, fold_proposed_good ?_⟩
    · rw [fold_proposed.1]; exact h.1
    · rw [h.2.1]; exact h2
  intro l
  induction l with
  | nil => intro st _ h; exact h
  | cons v l ih =>
    intro st h1 h2
    rw [List.foldl_cons]
    have : GoodDict (makeStep gim st v).rafsiList ∧ GoodDict (makeStep gim st v).expList := by
      unfold makeStep
      split
      · split
        · exact ⟨h1, h2⟩
        · exact add _ _ (goodDict_set h1) h2
      · split
        · exact add _ _ h1 h2
        · exact ⟨h1, h2⟩
    exact ih this.1 this.2

theorem fold_exceptions : ∀ {l : List (Str × List Str)} {st : MakeState}, GoodDict st.rafsiList → 
    GoodDict (l.foldl (fun st e => e.2.foldl (addAssigned e.1) st) st).rafsiList ∧
    (l.foldl (fun st e => e.2.foldl (addAssigned e.1) st) st).expList = st.expList ∧
    (∀ r, r ∈ (l.foldl (fun st e => e.2.foldl (addAssigned e.1) st) st).priority ↔ r ∈ st.priority ∨ ∃ e ∈ l, r ∈ e.2) ∧
    (∀ w r, r ∈ dictGet (l.foldl (fun st e => e.2.foldl (addAssigned e.1) st) st).rafsiList w ↔
      r ∈ dictGet st.rafsiList w ∨ ∃ e ∈ l, w = e.1 ∧ r ∈ e.2) ∧
    (∀ w, (l.foldl (fun st e => e.2.foldl (addAssigned e.1) st) st).rafsiList.lookup w ≠ none ↔
      st.rafsiList.lookup w ≠ none ∨ ∃ e ∈ l, w = e.1 ∧ e.2 ≠ []) := by
  intro l
  induction l with
  | nil => intro st h; simp [h]
  | cons e l ih =>
    intro st h
    rw [List.foldl_cons]
    obtain ⟨h1, h2, h3, h4, h5⟩ := fold_assigned (w := e.1) (rs := e.2) h
    obtain ⟨g1, g2, g3, g4, g5⟩ := ih h1
    refine ⟨g1, g2.trans h2, ?_, ?_, ?_⟩
    · intro r; rw [g3, h3]; simp only [exists_mem_cons', or_assoc]
    · intro w r; rw [g4, h4]; simp only [exists_mem_cons', or_assoc]
    · intro w; rw [g5, h5]; simp only [exists_mem_cons', or_assoc]

theorem fold_new {pr : List Str} {w : Str} : ∀ {rs : List Str} {d : RafsiSets}, GoodDict d →
    GoodDict (rs.foldl (fun d r => if r ∈ pr then d else dictAdd d w r) d) ∧
    (∀ w' r, r ∈ dictGet (rs.foldl (fun d r => if r ∈ pr then d else dictAdd d w r) d) w' ↔
      r ∈ dictGet d w' ∨ (w' = w ∧ r ∈ rs ∧ r ∉ pr)) ∧
    (∀ w', (rs.foldl (fun d r => if r ∈ pr then d else dictAdd d w r) d).lookup w' ≠ none ↔
      d.lookup w' ≠ none ∨ (w' = w ∧ ∃ r ∈ rs, r ∉ pr)) := by
  intro rs
  induction rs with
  | nil => intro d h; simp [h]
  | cons x rs ih =>
    intro d h
    rw [List.foldl_cons]
    by_cases hx : x ∈ pr
    · rw [if_pos hx]
      obtain ⟨h1, h2, h3⟩ := ih h
      refine ⟨h1, ?_, ?_⟩
      · intro w' r; rw [h2]; simp only [List.mem_cons]; grind
      · intro w'; rw [h3]; simp only [exists_mem_cons']; grind
    · rw [if_neg hx]
      obtain ⟨h1, h2, h3⟩ := ih (goodDict_add (w := w) (r := x) h)
      refine ⟨h1, ?_, ?_⟩
      · intro w' r; rw [h2, get_dictAdd]; simp only [List.mem_cons]; grind
      · intro w'
        rw [h3, lookup_dictAdd]
        by_cases hw : w' = w
        · subst hw; simp [hx]
        · simp [hw]

theorem fold_proposals {pr : List Str} : ∀ {l : RafsiSets} {d : RafsiSets}, GoodDict d →
    GoodDict (l.foldl (fun d e => e.2.foldl (fun d r => if r ∈ pr then d else dictAdd d e.1 r) d) d) ∧
    (∀ w r, r ∈ dictGet (l.foldl (fun d e => e.2.foldl (fun d r => if r ∈ pr then d else dictAdd d e.1 r) d) d) w ↔
      r ∈ dictGet d w ∨ ∃ e ∈ l, w = e.1 ∧ r ∈ e.2 ∧ r ∉ pr) ∧
    (∀ w, (l.foldl (fun d e => e.2.foldl (fun d r => if r ∈ pr then d else dictAdd d e.1 r) d) d).lookup w ≠ none ↔
      d.lookup w ≠ none ∨ ∃ e ∈ l, w = e.1 ∧ ∃ r ∈ e.2, r ∉ pr) := by
  intro l
  induction l with
  | nil => intro d h; simp [h]
  | cons e l ih =>
    intro d h
    rw [List.foldl_cons]
    obtain ⟨h1, h2, h3⟩ := fold_new (pr := pr) (w := e.1) (rs := e.2) h
    obtain ⟨g1, g2, g3⟩ := ih h1
    refine ⟨g1, ?_, ?_⟩
    · intro w r; rw [g2, h2]; simp only [exists_mem_cons', or_assoc]
    · intro w; rw [g3, h3]; simp only [exists_mem_cons', or_assoc]

/-- What `matchRafsi` accepts. -/
def RafsiShaped (r : Str) : Prop :=
  ∃ a b c, isConsonant a = true ∧ isAZ b = true ∧ isAZ c = true ∧ (r = [a, b, c] ∨ r = [a, b, '\'', c])

theorem matchRafsi_iff {t r v : Str} : matchRafsi t = some (r, v) ↔ t = r ++ '-' :: v ∧ RafsiShaped r := by
  have hap : isAZ '\'' = false := by decide
  have hhy : isAZ '-' = false := by decide
  constructor
  · intro h
    unfold matchRafsi at h
    split at h
    · split at h
      · rename_i a b c t' hc
        cases h
        simp only [Bool.and_eq_true] at hc
        exact ⟨rfl, a, b, c, hc.1.1, hc.1.2, hc.2, .inr rfl⟩
      · cases h
    · split at h
      · rename_i a b c t' _ hc
        cases h
        simp only [Bool.and_eq_true] at hc
        exact ⟨rfl, a, b, c, hc.1.1, hc.1.2, hc.2, .inl rfl⟩
      · cases h
    · cases h
  · rintro ⟨rfl, a, b, c, ha, hb, hc, rfl | rfl⟩
    · unfold matchRafsi
      split
      · rename_i e
        injection e with _ e; injection e with _ e; injection e with e _
        subst e
        rw [hap] at hc; cases hc
      · rename_i e
        injection e with e1 e; injection e with e2 e; injection e with e3 e; injection e with _ e
        subst e1 e2 e3 e
        simp [ha, hb, hc]
      · rename_i h
        exact absurd rfl (h a b c _)
    · simp [matchRafsi, ha, hb, hc]

theorem matchProposal_iff {t r rest : Str} : matchProposal t = some (r, rest) ↔
    ∃ a v, t = a :: '-' :: (r ++ '-' :: v) ∧ RafsiShaped r ∧ (∀ z, v.head? = some z → isAZ z = false) ∧ rest = v.tail := by
  constructor
  · intro h
    unfold matchProposal at h
    split at h
    · rename_i a t'
      split at h
      · rename_i r' hm
        cases h
        obtain ⟨rfl, hs⟩ := matchRafsi_iff.1 hm
        exact ⟨a, [], rfl, hs, by simp, rfl⟩
      · rename_i r' c v hm
        split at h
        · cases h
        · rename_i hc
          cases h
          obtain ⟨rfl, hs⟩ := matchRafsi_iff.1 hm
          exact ⟨a, c :: _, rfl, hs, by simpa using hc, rfl⟩
      · cases h
    · cases h
  · rintro ⟨a, v, rfl, hs, hz, rfl⟩
    have := matchRafsi_iff (t := r ++ '-' :: v) |>.2 ⟨rfl, hs⟩
    cases v with
    | nil => simp [matchProposal, this]
    | cons z v =>
      have hz := hz z rfl
      simp [matchProposal, this, hz]

theorem found_sound : ∀ {n : Nat} {t r : Str}, r ∈ findProposals n t →
    ∃ u a v, t = u ++ a :: '-' :: (r ++ '-' :: v) ∧ RafsiShaped r ∧ (∀ z, v.head? = some z → isAZ z = false) := by
  intro n
  induction n with
  | zero => intro t r h; simp [findProposals] at h
  | succ n ih =>
    intro t r h
    cases t with
    | nil => simp [findProposals] at h
    | cons c t =>
      unfold findProposals at h
      split at h
      · rename_i r' rest hm
        obtain ⟨a, v, e, hs, hz, rfl⟩ := matchProposal_iff.1 hm
        rcases List.mem_cons.1 h with rfl | h
        · exact ⟨[], a, v, e, hs, hz⟩
        · obtain ⟨u, a', v', e', hs', hz'⟩ := ih h
          rw [e]
          cases v with
          | nil => simp at e'
          | cons z v =>
            simp only [List.tail_cons] at e'
            subst e'
            exact ⟨a :: '-' :: (r' ++ '-' :: z :: u), a', v', by simp, hs', hz'⟩
      · obtain ⟨u, a', v', e', hs', hz'⟩ := ih h
        subst e'
        exact ⟨c :: u, a', v', by simp, hs', hz'⟩

theorem shaped_head {r : Str} (h : RafsiShaped r) : ∃ c t, r = c :: t ∧ isAZ c = true ∧ '-' ∉ r ∧ r.length ≤ 4 := by
  obtain ⟨a, b, c, ha, hb, hc, hr⟩ := h
  have hz : isAZ a = true := by
    have : ∀ x ∈ s%"bcdfgjklmnprstvxz", isAZ x = true := by decide
    exact this a (by simpa [isConsonant] using ha)
  have ne : ∀ x, isAZ x = true → x ≠ '-' := by
    rintro x hx rfl
    exact absurd hx (by decide)
  have := ne a hz
  have := ne b hb
  have := ne c hc
  rcases hr with rfl | rfl
  · exact ⟨a, _, rfl, hz, by simp; grind, by simp⟩
  · exact ⟨a, _, rfl, hz, by simp; grind, by simp⟩

theorem last_of_match {x : Char} {r' : Str} (w : Str) : (x :: '-' :: r' ++ ['-'] ++ w).getLast? = (if w = [] then some '-' else w.getLast?) := by
  rw [List.getLast?_append]
  split
  · rename_i h
    subst h
    simp only [List.getLast?_nil, Option.none_or]
    rw [List.getLast?_append]
    rfl
  · rename_i h
    cases hw : w.getLast? with
    | none => exact absurd (List.getLast?_eq_none_iff.1 hw) h
    | some c => rfl

/-- A mention that is set off from the match before it begins after that match. -/
theorem apart_after {x a : Char} {r' v' u r v : Str} (hs' : RafsiShaped r') (hz' : ∀ z, v'.head? = some z → isAZ z = false)
    (hs : RafsiShaped r) (hu : u ≠ []) (ha : a ≠ '-') (hl : u.getLast? ≠ some '-')
    (e : x :: '-' :: (r' ++ '-' :: v') = u ++ a :: '-' :: (r ++ '-' :: v)) :
    ∃ u', v'.tail = u' ++ a :: '-' :: (r ++ '-' :: v) ∧ u'.getLast? ≠ some '-' := by
  obtain ⟨c, t, rfl, hc, -, -⟩ := shaped_head hs
  obtain ⟨_, _, -, -, hno, -⟩ := shaped_head hs'
  -- `u` does not end inside the match
  rcases List.append_eq_append_iff (ws := x :: '-' :: r' ++ ['-']) (xs := v') (ys := u) (zs := a :: '-' :: (c :: t ++ '-' :: v)) |>.1 (by simpa using e) with ⟨w, h1, h2⟩ | ⟨w, h1, h2⟩
  · -- u = match ++ w
    cases w with
    | nil =>
      exfalso
      apply hl
      rw [h1, last_of_match]; rfl
    | cons z w =>
      refine ⟨w, by rw [h2]; simp, ?_⟩
      intro hw
      apply hl
      rw [h1]
      cases w with
      | nil => simp at hw
      | cons z' w =>
        rw [last_of_match, if_neg (by simp), List.getLast?_cons_cons]
        exact hw
  · -- the match ends inside the mention
    exfalso
    cases w with
    | nil =>
      rw [List.append_nil] at h1
      apply hl
      rw [← h1, ← List.append_nil (_ ++ _), last_of_match]; rfl
    | cons b w =>
      simp only [List.cons_append, List.cons.injEq] at h2
      obtain ⟨rfl, h2⟩ := h2
      cases w with
      | nil =>
        -- a is the last hyphen of the match
        have : (x :: '-' :: r' ++ ['-']).getLast? = (u ++ [a]).getLast? := by rw [h1]
        rw [← List.append_nil (_ ++ ['-']), last_of_match, List.getLast?_concat] at this
        injection this with this
        exact ha this.symm
      | cons b' w =>
        simp only [List.cons_append, List.cons.injEq] at h2
        obtain ⟨rfl, h2⟩ := h2
        cases w with
        | nil =>
          -- the hyphen after `a` is the last of the match
          simp only [List.nil_append] at h2
          have := hz' c (by rw [← h2]; rfl)
          rw [hc] at this; cases this
        | cons b'' w =>
          simp only [List.cons_append, List.cons.injEq] at h2
          obtain ⟨rfl, h2⟩ := h2
          -- the hyphen after `a` is inside the match
          cases u with
          | nil => exact hu rfl
          | cons u1 u =>
            simp only [List.cons_append, List.cons.injEq] at h1
            obtain ⟨-, h1⟩ := h1
            cases u with
            | nil =>
              simp only [List.nil_append, List.cons.injEq] at h1
              exact ha h1.1.symm
            | cons u2 u =>
              simp only [List.cons_append, List.cons.injEq] at h1
              obtain ⟨-, h1⟩ := h1
              have h3 : r' = (u ++ a :: '-' :: c :: w).dropLast := by rw [← h1]; simp
              have : '-' ∈ r' := by
                rw [h3, List.dropLast_append_of_ne_nil (by simp)]
                simp
              exact hno this

theorem found_complete : ∀ {n : Nat} {t u : Str} {a : Char} {r v : Str}, t.length ≤ n → t = u ++ a :: '-' :: (r ++ '-' :: v) → RafsiShaped r →
    (∀ z, v.head? = some z → isAZ z = false) → a ≠ '-' → u.getLast? ≠ some '-' → r ∈ findProposals n t := by
  intro n
  induction n with
  | zero =>
    intro t u a r v hn e
    subst e
    simp at hn
  | succ n ih =>
    intro t u a r v hn e hs hz ha hl
    cases t with
    | nil => simp at e
    | cons x t =>
      unfold findProposals
      split
      · rename_i r' rest hm
        obtain ⟨x', v', e', hs', hz', rfl⟩ := matchProposal_iff.1 hm
        cases u with
        | nil =>
          have h2 := matchProposal_iff.2 ⟨a, v, e, hs, hz, rfl⟩
          rw [hm] at h2
          injection h2 with h2; injection h2 with h2 _
          simp [h2]
        | cons u1 u =>
          obtain ⟨u', h1, h2⟩ := apart_after hs' hz' hs (by simp) ha hl (e'.symm.trans e)
          refine .tail _ (ih ?_ h1 hs hz ha h2)
          rw [e'] at hn
          simp at hn ⊢
          omega
      · rename_i hm
        cases u with
        | nil =>
          have h2 := matchProposal_iff.2 ⟨a, v, e, hs, hz, rfl⟩
          rw [hm] at h2
          cases h2
        | cons u1 u =>
          simp only [List.cons_append, List.cons.injEq] at e
          refine ih (by simpa using hn) e.2 hs hz ha ?_
          intro hl'
          apply hl
          cases u with
          | nil => simp at hl'
          | cons => simpa [List.getLast?_cons_cons] using hl'

theorem hasSub_iff {x : Str} : ∀ {s : Str}, hasSub x s = true ↔ Occurs x s := by
  intro s
  induction s with
  | nil =>
    simp only [hasSub, List.isEmpty_iff]
    constructor
    · rintro rfl; exact ⟨[], [], rfl⟩
    · rintro ⟨u, v, h⟩; simp at h; grind
  | cons c t ih =>
    simp only [hasSub, Bool.or_eq_true, List.isPrefixOf_iff_prefix, ih]
    constructor
    · rintro (⟨v, h⟩ | ⟨u, v, h⟩)
      · exact ⟨[], v, by simpa using h.symm⟩
      · exact ⟨c :: u, v, by simp [h]⟩
    · rintro ⟨u, v, h⟩
      cases u with
      | nil => exact .inl ⟨v, by simpa using h.symm⟩
      | cons d u =>
        simp at h
        exact .inr ⟨u, v, by simp [h.2]⟩

theorem isAZ_iff {c : Char} : isAZ c = true ↔ LowerCase c := by
  simp [isAZ, LowerCase]

/-- Among the letters it accepts, a proposed rafsi is kept iff two consonants at its beginning are an initial pair. -/
theorem proposable_iff {r : Str} : Proposable r ↔ RafsiShaped r ∧ Kept r := by
  have key : ∀ {a b : Char} {t : Str}, (∀ a' b' t', a :: b :: t = a' :: b' :: t' → Consonant b' → InitialPair a' b') ↔ Kept (a :: b :: t) := by
    intro a b t
    unfold Kept
    have : (a :: b :: t).take 2 = [a, b] := rfl
    rw [this]
    constructor
    · intro h
      have h := h a b t rfl
      rw [← isConsonant_iff, ← initial_contains] at h
      cases hb : isConsonant b
      · simp [hb]
      · simp [hb]; simpa using h hb
    · rintro h a' b' t' e hb
      cases e
      rw [← isConsonant_iff] at hb
      rw [← initial_contains]
      simpa [hb] using h
  unfold Proposable RafsiShaped
  constructor
  · rintro ⟨⟨a, b, c, ha, hb, hc, hr⟩, h⟩
    refine ⟨⟨a, b, c, (isConsonant_iff a).2 ha, isAZ_iff.2 hb, isAZ_iff.2 hc, hr⟩, ?_⟩
    rcases hr with rfl | rfl <;> exact key.1 h
  · rintro ⟨⟨a, b, c, ha, hb, hc, hr⟩, h⟩
    refine ⟨⟨a, b, c, (isConsonant_iff a).1 ha, isAZ_iff.1 hb, isAZ_iff.1 hc, hr⟩, ?_⟩
    rcases hr with rfl | rfl <;> exact key.2 h

/-- The table before its sets are sorted. -/
def madeSets (root : List Valsi) : RafsiSets := addProposals (addExceptions (root.foldl (makeStep (gimste root)) {}))

theorem taken_iff {root : List Valsi} {v : Valsi} (h : v ∈ root) : Taken (gimste root) v ↔ DictEntry root v := by
  have : v.word.take 4 ∉ gimste root ↔ ∀ g ∈ root, g.type = s%"gismu" → g.word.take 4 ≠ v.word.take 4 := by
    unfold gimste
    simp only [List.mem_map, List.mem_filter, beq_iff_eq, not_exists, not_and]
    exact ⟨fun h g hg ht => h g ⟨hg, ht⟩, fun h g hg => h g hg.1 hg.2⟩
  unfold Taken DictEntry GismuEntry
  rw [this]
  simp only [h, true_and, or_assoc]

theorem takenGismu_iff {root : List Valsi} {v : Valsi} (h : v ∈ root) : TakenGismu (gimste root) v ↔ GismuEntry root v := by
  have : v.word.take 4 ∉ gimste root ↔ ∀ g ∈ root, g.type = s%"gismu" → g.word.take 4 ≠ v.word.take 4 := by
    unfold gimste
    simp only [List.mem_map, List.mem_filter, beq_iff_eq, not_exists, not_and]
    exact ⟨fun h g hg ht => h g ⟨hg, ht⟩, fun h g hg => h g hg.1 hg.2⟩
  unfold TakenGismu GismuEntry
  rw [this]
  simp only [h, true_and]

theorem entry_mem {root : List Valsi} {v : Valsi} (h : DictEntry root v) : v ∈ root := h.elim (·.1) (·.1)

theorem noteRafsi_sound {v : Valsi} {r : Str} (h : r ∈ noteRafsi v) (hk : Kept r) :
    ∃ text, v.notes = some text ∧ Occurs s%"rafsi" (lower text) ∧ ∃ u a t, Mentions text u a r t := by
  unfold noteRafsi at h
  dsimp only at h
  split at h
  · rename_i ho
    obtain ⟨u, a, t, e, hs, hz⟩ := found_sound h
    cases hn : v.notes with
    | none => rw [hn] at e; simp at e
    | some text =>
      rw [hn] at ho e
      refine ⟨text, rfl, hasSub_iff.1 ho, u, a, t, by simpa using e, proposable_iff.2 ⟨hs, hk⟩, ?_⟩
      intro z hz' hl
      have := hz z hz'
      rw [isAZ_iff.2 hl] at this; cases this
  · cases h

theorem noteRafsi_complete {v : Valsi} {r text u t : Str} {a : Char} (hn : v.notes = some text) (ho : Occurs s%"rafsi" (lower text))
    (hm : Mentions text u a r t) (ha : a ≠ '-') (hl : u.getLast? ≠ some '-') : r ∈ noteRafsi v ∧ Kept r := by
  obtain ⟨hs, hk⟩ := proposable_iff.1 hm.proposable
  refine ⟨?_, hk⟩
  unfold noteRafsi
  rw [hn]
  simp only [Option.getD_some]
  rw [if_pos (hasSub_iff.2 ho)]
  refine found_complete (Nat.le_refl _) (u := u) (a := a) (v := t) (by rw [hm.eq]; simp) hs ?_ ha hl
  intro z hz
  cases h : isAZ z
  · rfl
  · exact absurd (isAZ_iff.1 h) (hm.after z hz)

/-- What the script puts into the sets. -/
structure MadeSets (root : List Valsi) : Prop where
  good : GoodDict (madeSets root)
  list : ∀ w r, r ∈ dictGet (madeSets root) w ↔ Assigned root w r ∨
    ((∃ v ∈ root, DictEntry root v ∧ w = v.word ∧ r ∈ noteRafsi v ∧ Kept r) ∧ ∀ w', ¬ Assigned root w' r)
  keys : ∀ w, (madeSets root).lookup w ≠ none ↔ (∃ v ∈ root, w = v.word ∧ GismuEntry root v) ∨ dictGet (madeSets root) w ≠ []

theorem made {root : List Valsi} (h : OneEntryEach root) : MadeSets root := by
  have h1 : Looped (gimste root) {} (root.foldl (makeStep (gimste root)) {}) root :=
    loop_steps goodDict_nil h (by intro v _; rfl)
  have hx : GoodDict (root.foldl (makeStep (gimste root)) {}).expList := loop_exp goodDict_nil goodDict_nil
  have hm : madeSets root = addProposals (addExceptions (root.foldl (makeStep (gimste root)) {})) := rfl
  generalize root.foldl (makeStep (gimste root)) {} = st1 at h1 hx hm
  obtain ⟨e1, e2, e3, e4, e5⟩ := fold_exceptions (l := makeExceptions) h1.good
  change GoodDict (addExceptions st1).rafsiList at e1
  change (addExceptions st1).expList = _ at e2
  change ∀ r, r ∈ (addExceptions st1).priority ↔ _ at e3
  change ∀ w r, r ∈ dictGet (addExceptions st1).rafsiList w ↔ _ at e4
  change ∀ w, (addExceptions st1).rafsiList.lookup w ≠ none ↔ _ at e5
  generalize addExceptions st1 = st2 at e1 e2 e3 e4 e5 hm
  obtain ⟨p1, p2, p3⟩ := fold_proposals (pr := st2.priority) (l := st2.expList) e1
  change GoodDict (addProposals st2) at p1
  change ∀ w r, r ∈ dictGet (addProposals st2) w ↔ _ at p2
  change ∀ w, (addProposals st2).lookup w ≠ none ↔ _ at p3
  rw [← hm] at p1 p2 p3
  have hA : ∀ w r, r ∈ dictGet st2.rafsiList w ↔ Assigned root w r := by
    intro w r
    rw [e4, h1.list]
    unfold Assigned
    constructor
    · rintro ((h | ⟨v, hv, ht, rfl, hr⟩) | ⟨⟨w', rs⟩, he, rfl, hr⟩)
      · simp [dictGet] at h
      · exact .inl ⟨v, (taken_iff hv).1 ht, rfl, hr⟩
      · exact .inr ⟨rs, he, hr⟩
    · rintro (⟨v, ht, rfl, hr⟩ | ⟨rs, he, hr⟩)
      · exact .inl (.inr ⟨v, entry_mem ht, (taken_iff (entry_mem ht)).2 ht, rfl, hr⟩)
      · exact .inr ⟨(w, rs), he, rfl, hr⟩
  have hB : ∀ r, r ∈ st2.priority ↔ ∃ w, Assigned root w r := by
    intro r
    rw [e3, h1.priority]
    unfold Assigned
    constructor
    · rintro ((h | ⟨v, hv, ht, hr⟩) | ⟨⟨w', rs⟩, he, hr⟩)
      · cases h
      · exact ⟨v.word, .inl ⟨v, (taken_iff hv).1 ht, rfl, hr⟩⟩
      · exact ⟨w', .inr ⟨rs, he, hr⟩⟩
    · rintro ⟨w, ⟨v, ht, rfl, hr⟩ | ⟨rs, he, hr⟩⟩
      · exact .inl (.inr ⟨v, entry_mem ht, (taken_iff (entry_mem ht)).2 ht, hr⟩)
      · exact .inr ⟨(w, rs), he, hr⟩
  have hC : ∀ w r, (∃ e ∈ st2.expList, w = e.1 ∧ r ∈ e.2 ∧ r ∉ st2.priority) ↔
      (∃ v ∈ root, DictEntry root v ∧ w = v.word ∧ r ∈ noteRafsi v ∧ Kept r) ∧ ∀ w', ¬ Assigned root w' r := by
    intro w r
    have hp : r ∉ st2.priority ↔ ∀ w', ¬ Assigned root w' r := by rw [hB, not_exists]
    rw [← hp, e2]
    have hg : (∃ e ∈ st1.expList, w = e.1 ∧ r ∈ e.2) ↔ r ∈ dictGet st1.expList w := by
      unfold dictGet
      constructor
      · rintro ⟨⟨w', s⟩, he, rfl, hr⟩
        rw [dict_lookup_of_mem hx.keys he]
        exact hr
      · intro hr
        cases hl : st1.expList.lookup w with
        | none => rw [hl] at hr; cases hr
        | some s =>
          rw [hl] at hr
          exact ⟨(w, s), mem_of_lookup hl, rfl, hr⟩
    have hv : r ∈ dictGet st1.expList w ↔ ∃ v ∈ root, DictEntry root v ∧ w = v.word ∧ r ∈ noteRafsi v ∧ Kept r := by
      rw [h1.exp]
      constructor
      · rintro (h | ⟨v, hv, ht, h⟩)
        · simp [dictGet] at h
        · exact ⟨v, hv, (taken_iff hv).1 ht, h⟩
      · rintro ⟨v, hv, ht, h⟩
        exact .inr ⟨v, hv, (taken_iff hv).2 ht, h⟩
    rw [← hv, ← hg]
    constructor
    · rintro ⟨e, he, h1, h2, h3⟩; exact ⟨⟨e, he, h1, h2⟩, h3⟩
    · rintro ⟨⟨e, he, h1, h2⟩, h3⟩; exact ⟨e, he, h1, h2, h3⟩
  have hlist : ∀ w r, r ∈ dictGet (madeSets root) w ↔ Assigned root w r ∨
      ((∃ v ∈ root, DictEntry root v ∧ w = v.word ∧ r ∈ noteRafsi v ∧ Kept r) ∧ ∀ w', ¬ Assigned root w' r) := by
    intro w r
    rw [p2, hA, hC]
  refine ⟨p1, hlist, ?_⟩
  intro w
  constructor
  · intro hk
    rw [p3, e5, h1.keys] at hk
    rcases hk with ((hk | ⟨v, hv, rfl, ht | ⟨ht, hr⟩⟩) | ⟨⟨w', rs⟩, he, rfl, hr⟩) | ⟨⟨w', rs⟩, he, rfl, r, hr, hn⟩
    · exact absurd rfl hk
    · exact .inl ⟨v, hv, rfl, (takenGismu_iff hv).1 ht⟩
    · obtain ⟨r, hr⟩ := List.exists_mem_of_ne_nil _ hr
      have := (hlist v.word r).2 (.inl (.inl ⟨v, (taken_iff hv).1 ht, rfl, hr⟩))
      exact .inr (List.ne_nil_of_mem this)
    · obtain ⟨r, hr⟩ := List.exists_mem_of_ne_nil _ hr
      exact .inr (List.ne_nil_of_mem ((hlist _ r).2 (.inl (.inr ⟨rs, he, hr⟩))))
    · exact .inr (List.ne_nil_of_mem ((p2 _ r).2 (.inr ⟨(_, rs), he, rfl, hr, hn⟩)))
  · rintro (⟨v, hv, rfl, ht⟩ | h)
    · rw [p3, e5, h1.keys]
      exact .inl (.inl (.inr ⟨v, hv, rfl, .inl ((takenGismu_iff hv).2 ht)⟩))
    · intro hn
      exact h (by simp [dictGet, hn])

/-- A line of the table is a set, put in order. -/
theorem mem_made {order : List Str → List Str} {root : List Valsi} (h : MadeSets root) {w : Str} {rs : List Str} :
    (w, rs) ∈ makeRafsiList order root ↔ ∃ s, (madeSets root).lookup w = some s ∧
      rs = (order s).mergeSort (fun a b => shapeKey a ≤ shapeKey b) := by
  unfold makeRafsiList
  change _ ∈ (madeSets root).map _ ↔ _
  rw [List.mem_map]
  constructor
  · rintro ⟨⟨w', s⟩, hm, e⟩
    cases e
    exact ⟨s, dict_lookup_of_mem h.good.keys hm, rfl⟩
  · rintro ⟨s, hl, rfl⟩
    exact ⟨(w, s), mem_of_lookup hl, rfl⟩

end Jvotci
