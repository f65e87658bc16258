import Verif.Lemmas.Cll

/-!
# C13, C29, C31, C33, C40: tables and small functions
-/

namespace Jvotci

open Spec

/-! ## C13 -/

theorem rafsiIndicesFrom_spec : ∀ (ps : List Str) (pre : Str),
    (rafsiIndicesFrom pre.length ps).map (fun ix => slice (pre ++ ps.flatten) ix.1 ix.2) =
      ps.filter (fun p => ¬ Hyphen p) ∧
    (rafsiIndicesFrom pre.length ps).Pairwise (fun a b => a.2 ≤ b.1) ∧
    (∀ ix ∈ rafsiIndicesFrom pre.length ps,
      pre.length ≤ ix.1 ∧ ix.1 ≤ ix.2 ∧ ix.2 ≤ pre.length + ps.flatten.length) := by
  intro ps
  induction ps with
  | nil => intro pre; simp [rafsiIndicesFrom]
  | cons p ps ih =>
    intro pre
    have ih := ih (pre ++ p)
    rw [List.length_append] at ih
    obtain ⟨ih1, ih2, ih3⟩ := ih
    have hh : HYPHENS.contains p = true ↔ Hyphen p := by
      rw [List.contains_iff_mem]; exact Iff.rfl
    unfold rafsiIndicesFrom
    split
    · rename_i hp
      refine ⟨?_, ih2, fun ix hix => ?_⟩
      · rw [List.filter_cons_of_neg (by simp [hh.1 hp]), ← ih1]
        simp [List.append_assoc]
      · have := ih3 ix hix
        rw [List.flatten_cons, List.length_append]; omega
    · rename_i hp
      have hp' : ¬ Hyphen p := fun h => hp (hh.2 h)
      refine ⟨?_, ?_, ?_⟩
      · rw [List.filter_cons_of_pos (by simp [hp']), ← ih1, List.map_cons]
        congr 1
        · rw [slice, List.flatten_cons, ← List.append_assoc, List.take_left' (by simp), List.drop_left]
        · simp [List.append_assoc]
      · rw [List.pairwise_cons]
        exact ⟨fun ix hix => (ih3 ix hix).1, ih2⟩
      · intro ix hix
        rw [List.flatten_cons, List.length_append]
        rcases List.mem_cons.1 hix with rfl | hix
        · simp
        · have := ih3 ix hix
          omega

/-- **C13.** Slicing the word at the indices of `get_rafsi_indices` gives the pieces that are not hyphens,
in order; the ranges increase, do not overlap and lie inside the word. -/
theorem C13_rafsi_indices (ps : List Str) :
    (getRafsiIndices ps).map (fun ix => slice ps.flatten ix.1 ix.2) = ps.filter (fun p => ¬ Hyphen p) ∧
    (getRafsiIndices ps).Pairwise (fun a b => a.2 ≤ b.1) ∧
    (∀ ix ∈ getRafsiIndices ps, ix.1 ≤ ix.2 ∧ ix.2 ≤ ps.flatten.length) := by
  obtain ⟨h1, h2, h3⟩ := rafsiIndicesFrom_spec ps []
  refine ⟨h1, h2, fun ix hix => ?_⟩
  have := h3 ix hix
  simp only [List.length_nil, Nat.zero_add] at this
  exact this.2

example : getRafsiIndices [s%"lo'i", s%"r", s%"pre", s%"y'", s%"ai"] = [(0, 4), (5, 8), (10, 12)] := by decide

/-! ## C31 -/

/-- **C31.** The tables are the rules: the permissible pairs, the initial pairs (a subset of the
permissible ones), the extra zi'evla initials (a subset of the initials) and the forbidden triples. -/
theorem C31_tables :
    (∀ mz a b, [a, b] ∈ validPairs mz ↔ PermissiblePair mz a b) ∧
    (∀ mz p, p ∈ validPairs mz → p.length = 2) ∧
    (∀ a b, [a, b] ∈ INITIAL ↔ InitialPair a b) ∧
    (∀ p ∈ INITIAL, p.length = 2) ∧
    (∀ mz a b, InitialPair a b → PermissiblePair mz a b) ∧
    (∀ a b, [a, b] ∈ ZIhEVLA_INITIAL → InitialPair a b ∧ (b = 'l' ∨ b = 'r')) ∧
    (∀ t, t ∈ BANNED_TRIPLES ↔ t ∈ bannedTriples) := by
  refine ⟨fun mz a b => ?_, by decide +kernel, fun a b => ?_, by decide +kernel, fun mz a b h => ?_, ?_, fun t => Iff.rfl⟩
  · rw [← List.contains_iff_mem]; exact validPairs_contains
  · rw [← List.contains_iff_mem]; exact initial_contains
  · have h1 : ∀ p ∈ initialPairs, ∀ mz : Bool, p ∈ validPairs mz := by decide +kernel
    exact validPairs_contains.1 (List.contains_iff_mem.2 (h1 _ h mz))
  · have h1 : ∀ p ∈ ZIhEVLA_INITIAL, p ∈ initialPairs ∧ (p[1]? = some 'l' ∨ p[1]? = some 'r') := by decide +kernel
    intro a b h
    simpa [InitialPair] using h1 _ h

example : PermissiblePair false 'n' 'j' ∧ ¬ PermissiblePair false 'm' 'z' ∧ PermissiblePair true 'm' 'z' := by decide

/-! ## C33 -/

theorem settingsItem_base {α : Type} : ∀ (settings : List (List α)) (base k index : Nat),
    settingsItem (base * k) index settings = settingsItem k (index / base) settings := by
  intro settings
  induction settings with
  | nil => intro base k index; rfl
  | cons s rest ih =>
    intro base k index
    unfold settingsItem
    rw [Nat.mul_assoc, ih, Nat.div_div_eq_div_mul]

theorem possibilities_cons {α : Type} (s : List α) (rest : List (List α)) :
    possibilities (s :: rest) = s.length * possibilities rest := by
  have key : ∀ (rest : List (List α)) (n : Nat), rest.foldl (fun p s => p * s.length) n =
      n * rest.foldl (fun p s => p * s.length) 1 := by
    intro rest
    induction rest with
    | nil => intro n; simp
    | cons t rest ih =>
      intro n
      rw [List.foldl_cons, List.foldl_cons, ih, ih (1 * t.length)]
      rw [Nat.one_mul, Nat.mul_assoc]
  unfold possibilities
  rw [List.foldl_cons, key, Nat.one_mul]

theorem settingsItem_cons {α : Type} {s : List α} {rest : List (List α)} {i : Nat} (h : 0 < s.length) :
    settingsItem 1 i (s :: rest) =
      (settingsItem 1 (i / s.length) rest).map (fun xs => s[i % s.length]'(Nat.mod_lt _ h) :: xs) := by
  have h1 : i % s.length < s.length := Nat.mod_lt _ h
  rw [settingsItem, Nat.div_one, List.getElem?_eq_getElem h1]
  rw [show 1 * s.length = s.length * 1 by omega, settingsItem_base]
  cases settingsItem 1 (i / s.length) rest <;> rfl

theorem div_lt_poss {i n p : Nat} (hi : i < n * p) : i / n < p := Nat.div_lt_of_lt_mul hi

theorem settingsItem_ok {α : Type} : ∀ {settings : List (List α)} {i : Nat}, i < possibilities settings →
    ∃ xs, settingsItem 1 i settings = .ok xs ∧ Picks settings xs := by
  intro settings
  induction settings with
  | nil => intro i _; exact ⟨[], rfl, .nil⟩
  | cons s rest ih =>
    intro i hi
    rw [possibilities_cons] at hi
    have hpos : 0 < s.length := by
      cases s with
      | nil => simp at hi
      | cons => simp
    obtain ⟨xs, h1, h2⟩ := ih (div_lt_poss hi)
    rw [settingsItem_cons hpos, h1]
    exact ⟨_, rfl, .cons (List.getElem_mem _) h2⟩

theorem settingsItem_surj {α : Type} : ∀ {settings : List (List α)} {xs : List α}, Picks settings xs →
    ∃ i, i < possibilities settings ∧ settingsItem 1 i settings = .ok xs := by
  intro settings xs h
  induction h with
  | nil => exact ⟨0, Nat.one_pos, rfl⟩
  | @cons s x rest xs hx _ ih =>
    obtain ⟨k, hk, h1⟩ := ih
    obtain ⟨j, hj, rfl⟩ := List.getElem_of_mem hx
    refine ⟨s.length * k + j, ?_, ?_⟩
    · rw [possibilities_cons]
      calc s.length * k + j < s.length * k + s.length := by omega
        _ = s.length * (k + 1) := by rw [Nat.mul_succ]
        _ ≤ s.length * possibilities rest := Nat.mul_le_mul_left _ hk
    · have hpos : 0 < s.length := by omega
      rw [settingsItem_cons hpos]
      have e1 : (s.length * k + j) / s.length = k := by
        rw [Nat.mul_add_div hpos, Nat.div_eq_of_lt hj]; rfl
      have e2 : (s.length * k + j) % s.length = j := by
        rw [Nat.mul_add_mod, Nat.mod_eq_of_lt hj]
      rw [e1, h1]
      simp only [e2]
      rfl

theorem settingsItem_inj {α : Type} : ∀ {settings : List (List α)}, (∀ s ∈ settings, s.Nodup) →
    ∀ {i j : Nat}, i < possibilities settings → j < possibilities settings →
    settingsItem 1 i settings = settingsItem 1 j settings → i = j := by
  intro settings
  induction settings with
  | nil => intro _ i j hi hj _; simp [possibilities] at hi hj; omega
  | cons s rest ih =>
    intro hn i j hi hj h
    rw [possibilities_cons] at hi hj
    have hpos : 0 < s.length := by
      cases s with
      | nil => simp at hi
      | cons => simp
    rw [settingsItem_cons hpos, settingsItem_cons hpos] at h
    obtain ⟨xs, h1, -⟩ := settingsItem_ok (div_lt_poss hi)
    obtain ⟨ys, h2, -⟩ := settingsItem_ok (div_lt_poss hj)
    rw [h1, h2] at h
    simp only [Except.map, Except.ok.injEq, List.cons.injEq] at h
    have e2 := ih (fun t ht => hn t (List.mem_cons_of_mem _ ht)) (div_lt_poss hi) (div_lt_poss hj)
      (by rw [h1, h2, h.2])
    have e1 := (List.getElem_inj (hn s (List.mem_cons_self ..))).1 h.1
    rw [← Nat.div_add_mod i s.length, ← Nat.div_add_mod j s.length, e1, e2]

/-- Choosing the same thing from every list, once per index. -/
theorem mapM_ok {α β : Type} {f : α → Except Err β} : ∀ {l : List α}, (∀ a ∈ l, ∃ b, f a = .ok b) →
    ∃ bs, l.mapM f = .ok bs ∧ l.map f = bs.map .ok := by
  intro l
  induction l with
  | nil => intro _; exact ⟨[], rfl, rfl⟩
  | cons a l ih =>
    intro h
    obtain ⟨b, hb⟩ := h a (List.mem_cons_self ..)
    obtain ⟨bs, h1, h2⟩ := ih (fun x hx => h x (List.mem_cons_of_mem _ hx))
    refine ⟨b :: bs, ?_, ?_⟩
    · rw [List.mapM_cons, hb, h1]; rfl
    · rw [List.map_cons, List.map_cons, hb, h2]

/-- **C33.** `SettingsIterator` yields every combination, nothing else, and each as often as there are
indices for it: exactly once if no option list has duplicates. -/
theorem C33_settings_iterator {α : Type} (settings : List (List α)) :
    ∃ items, settingsIter settings = .ok items ∧
      items.length = (settings.map List.length).foldr (· * ·) 1 ∧
      (∀ x, x ∈ items ↔ Picks settings x) ∧
      ((∀ s ∈ settings, s.Nodup) → items.Nodup) := by
  obtain ⟨items, h1, h2⟩ := mapM_ok (f := fun i => settingsItem 1 i settings)
    (l := List.range (possibilities settings)) (by
      intro i hi
      obtain ⟨xs, h, -⟩ := settingsItem_ok (List.mem_range.1 hi)
      exact ⟨xs, h⟩)
  refine ⟨items, h1, ?_, ?_, ?_⟩
  · have hl := congrArg List.length h2
    simp only [List.length_map, List.length_range] at hl
    rw [← hl]
    clear h1 h2 hl
    induction settings with
    | nil => rfl
    | cons s rest ih => rw [possibilities_cons, ih]; rfl
  · intro x
    have : x ∈ items ↔ (Except.ok x : Except Err (List α)) ∈ items.map .ok := by simp
    rw [this, ← h2, List.mem_map]
    constructor
    · rintro ⟨i, hi, h⟩
      obtain ⟨xs, h', hp⟩ := settingsItem_ok (List.mem_range.1 hi)
      rw [h'] at h
      cases h
      exact hp
    · intro hp
      obtain ⟨i, hi, h⟩ := settingsItem_surj hp
      exact ⟨i, List.mem_range.2 hi, h⟩
  · intro hn
    have h3 : (items.map (Except.ok : _ → Except Err (List α))).Nodup := by
      rw [← h2]
      rw [List.Nodup, List.pairwise_map]
      refine List.Pairwise.imp_of_mem ?_ List.nodup_range
      intro i j hi hj hne h
      exact hne (settingsItem_inj hn (List.mem_range.1 hi) (List.mem_range.1 hj) h)
    rw [List.Nodup, List.pairwise_map] at h3
    exact h3.imp (fun h e => h (by rw [e]))

example : settingsIter [[1, 2], [3], [4, 5, 6]] =
    .ok [[1, 3, 4], [2, 3, 4], [1, 3, 5], [2, 3, 5], [1, 3, 6], [2, 3, 6]] := by decide

end Jvotci
