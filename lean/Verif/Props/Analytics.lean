import Verif.Lemmas.Layout
import Verif.Props.Input

/-!
# C22, C23, C24, C27: what `get_lujvo_with_analytics` reports about the word it made

`Words t ws` names the components of a tanru the way a user writes them: the words of the list, or the words of
the text between the white space. `reading` is the word as `normalise` reads it.
-/

namespace Jvotci

open Spec

/-- The words of a tanru. -/
def Words : Tanru → List Str → Prop
  | .str text, ws => Spaced text ws
  | .list l, ws => l = ws

theorem Words.list {t : Tanru} {ws : List Str} (h : Words t ws) (b : Build) (s : Settings) (g : Bool) :
    getLujvoWithAnalytics b s g t = getLujvoWithAnalytics b s g (.list ws) := by
  cases t with
  | str text => exact (C18_text_or_list h b s g).2
  | list l => cases h; rfl

theorem mapM_normalise_ok : ∀ {ws vs : List Str}, ws.mapM normalise = Except.ok (ε := Err) vs → vs = ws.map reading
  | [], vs, h => by simp [pure, Except.pure] at h; simp [h]
  | w :: ws, vs, h => by
    rw [List.mapM_cons] at h
    obtain ⟨v, hv, h⟩ := bind_ok h
    obtain ⟨vs', hvs, h⟩ := bind_ok h
    cases h
    rw [mapM_normalise_ok hvs, (normalise_ok hv).2]
    rfl

/-- Everything the following theorems use. -/
theorem analytics_layout {b : Build} {s : Settings} {g : Bool} {t : Tanru} {ws : List Str} {w : Str} {sc : Int}
    {ix : List (Nat × Nat)} (hw : Words t ws) (h : getLujvoWithAnalytics b s g t = .ok (w, sc, ix)) :
    ∃ xs, All2 (RafsiOf RAFSI_LIST s.allowMz) (ws.map reading) xs ∧ Layout s.allowMz w xs ix ∧
      ∃ tie : Int, (tie = 1 ∧ TieAt w ix ∨ tie = 0 ∧ ¬ TieAt w ix) ∧
        sc = weight w - 10 * (sumShapes xs : Int) - tie := by
  rw [hw.list, getLujvoWithAnalytics_program] at h
  obtain ⟨vs, hvs, h⟩ := bind_ok h
  cases mapM_normalise_ok hvs
  exact getLujvoFromList_layout h

theorem Spec.All2.length {α β : Type} {r : α → β → Prop} {l : List α} {l' : List β} (h : All2 r l l') : l.length = l'.length := by
  induction h with
  | nil => rfl
  | cons _ _ ih => simp [ih]

/-- **C22.** One index pair per component. The ranges are not empty, lie inside the word and follow one another;
the first starts at the beginning, the last ends at the end, and between two consecutive ranges lies a hyphen or
nothing. -/
theorem C22_indices {b : Build} {s : Settings} {g : Bool} {t : Tanru} {ws : List Str} {w : Str} {sc : Int}
    {ix : List (Nat × Nat)} (hw : Words t ws) (h : getLujvoWithAnalytics b s g t = .ok (w, sc, ix)) :
    ix.length = ws.length ∧
    (∀ p ∈ ix, p.1 < p.2 ∧ p.2 ≤ w.length) ∧
    (∃ p, ix.head? = some p ∧ p.1 = 0) ∧
    (∃ p, ix.getLast? = some p ∧ p.2 = w.length) ∧
    (∀ u p q v, ix = u ++ p :: q :: v → p.2 ≤ q.1 ∧ (slice w p.2 q.1 = [] ∨ Hyphen (slice w p.2 q.1))) := by
  obtain ⟨xs, hx, hl, -⟩ := analytics_layout hw h
  refine ⟨?_, fun p hp => hl.bounds p hp, hl.starts, hl.length.2, ?_⟩
  · rw [hl.length.1, ← hx.length, List.length_map]
  · intro u p q v e
    obtain ⟨h1, h2, -⟩ := hl.between e
    exact ⟨h1, h2⟩

example : Words (.str s%" latmo kerlo") [s%"latmo", s%"kerlo"] ∧
    getLujvoWithAnalytics .linked {} false (.str s%" latmo kerlo") = .ok (s%"la'orkerlo", 9926, [(0, 4), (5, 10)]) :=
  ⟨.word (u := s%" ") (w := s%"latmo") (rest := s%" kerlo") rfl (by decide) rfl (by simp; decide)
    (.word (u := s%" ") (w := s%"kerlo") (rest := []) rfl (by decide) rfl (by simp) (.none rfl)), by decide +kernel⟩

/-- **C23.** The slice at the i-th index pair is a rafsi of the i-th component. -/
theorem C23_slices {b : Build} {s : Settings} {g : Bool} {t : Tanru} {ws : List Str} {w : Str} {sc : Int}
    {ix : List (Nat × Nat)} (hw : Words t ws) (h : getLujvoWithAnalytics b s g t = .ok (w, sc, ix)) :
    All2 (fun v p => RafsiOf RAFSI_LIST s.allowMz (reading v) (slice w p.1 p.2)) ws ix := by
  obtain ⟨xs, hx, hl, -⟩ := analytics_layout hw h
  rw [← hl.slices] at hx
  clear h hl hw
  induction ws generalizing ix with
  | nil =>
    cases ix with
    | nil => exact .nil
    | cons => cases hx
  | cons v ws ih =>
    cases ix with
    | nil => cases hx
    | cons p ix =>
      cases hx with
      | cons h1 h2 => exact .cons h1 (ih h2)

example : getLujvoWithAnalytics .linked {} false (.list [s%"bangu", s%"ckule", s%"-zba-"]) =
    .ok (s%"bankulzba", 8827, [(0, 3), (3, 6), (6, 9)]) := by decide +kernel
example : getLujvoWithAnalytics .linked {} false (.list [s%"spageti", s%"kerlo"]) =
    .ok (s%"spageti'ykerlo", 14085, [(0, 7), (9, 14)]) := by decide +kernel

/-- **C24.** The score: 1000 for each letter, 100 for each `y`, less ten times the shape score of each rafsi, less
the number of vowels, less one where the tie-break applies. -/
theorem C24_score {b : Build} {s : Settings} {g : Bool} {t : Tanru} {w : Str} {sc : Int}
    {ix : List (Nat × Nat)} (h : getLujvoWithAnalytics b s g t = .ok (w, sc, ix)) :
    ∃ tie : Int, (tie = 1 ∧ TieAt w ix ∨ tie = 0 ∧ ¬ TieAt w ix) ∧
      sc = 1000 * (w.length : Int) + 100 * (countChar w 'y' : Int)
        - 10 * ((ix.map (fun p => shapeScore (slice w p.1 p.2))).sum : Int) - vowelCount w - tie := by
  have hw : ∃ ws, Words t ws := by
    cases t with
    | str text => exact C18_every_text text
    | list l => exact ⟨l, rfl⟩
  obtain ⟨ws, hw⟩ := hw
  obtain ⟨xs, -, hl, tie, htie, hs⟩ := analytics_layout hw h
  refine ⟨tie, htie, ?_⟩
  have : sumShapes xs = (ix.map (fun p => shapeScore (slice w p.1 p.2))).sum := by
    rw [← hl.slices, sumShapes, List.map_map]
    rfl
  rw [hs, weight_count, this]
  omega

example : getLujvoWithAnalytics .linked {} false (.str s%"fagri genxu karce moklu") =
    .ok (s%"fagygexykarcymo'u", 17115, [(0, 3), (4, 7), (8, 12), (13, 17)]) := by decide +kernel
/-- The tie-break applies here. -/
example : getLujvoWithAnalytics .linked {} false (.list [s%"-voi-", s%"zbasu"]) = .ok (s%"voizba", 5846, [(0, 3), (3, 6)]) ∧
    TieAt s%"voizba" [(0, 3), (3, 6)] :=
  ⟨by decide +kernel, _, _, _, rfl, by decide, rfl⟩

theorem slice_mid {a m t : Str} : slice (a ++ m ++ t) a.length (a.length + m.length) = m := by
  unfold slice
  rw [show a.length + m.length = (a ++ m).length by simp, List.take_left, List.drop_left]

/-- **C27.** Two consonants that meet at a joint of two components are a permissible pair, and no banned triple
starts at the last letter of a component. -/
theorem C27_joints {b : Build} {s : Settings} {g : Bool} {t : Tanru} {w : Str} {sc : Int}
    {u v : List (Nat × Nat)} {p q : Nat × Nat} (h : getLujvoWithAnalytics b s g t = .ok (w, sc, u ++ p :: q :: v)) :
    (∀ c d, Adjacent (slice w (p.2 - 1) (q.1 + 1)) c d → Consonant c → Consonant d → PermissiblePair s.allowMz c d) ∧
    slice w (p.2 - 1) (p.2 + 2) ∉ bannedTriples := by
  have hw : ∃ ws, Words t ws := by
    cases t with
    | str text => exact C18_every_text text
    | list l => exact ⟨l, rfl⟩
  obtain ⟨ws, hw⟩ := hw
  obtain ⟨xs, -, hl, -⟩ := analytics_layout hw h
  obtain ⟨h1, h2, w', x, t', e, ⟨l, c, x', hwl, rfl, hone, hpair, htrip⟩, hx, hlen, hxl⟩ := hl.between rfl
  obtain ⟨w'', rfl⟩ := List.getLast?_eq_some_iff.1 hwl
  have hbq := hl.bounds q (by simp)
  have hp2 : p.2 = w''.length + 1 := by simp at hlen; omega
  have hg : (slice w p.2 q.1).length = q.1 - p.2 := by
    unfold slice
    simp
    omega
  generalize hgg : slice w p.2 q.1 = gap at *
  constructor
  · have : slice w (p.2 - 1) (q.1 + 1) = l :: (gap ++ [c]) := by
      have e' : w = w'' ++ (l :: (gap ++ [c])) ++ (x' ++ t') := by rw [e]; simp
      have e2 : q.1 + 1 = w''.length + (l :: (gap ++ [c])).length := by simp; omega
      rw [e2, hp2, e']
      exact slice_mid
    rw [this]
    exact hpair
  · have : slice w (p.2 - 1) (p.2 + 2) = (l :: (gap ++ c :: (x' ++ t'))).take 3 := by
      have e' : w = w'' ++ (l :: (gap ++ c :: (x' ++ t'))) := by rw [e]; simp
      have e2 : p.2 + 2 - w''.length = 3 := by omega
      rw [e', hp2]
      unfold slice
      rw [List.drop_take, show w''.length + 1 - 1 = w''.length by omega, List.drop_left]
      congr 1
      omega
    rw [this]
    intro hm
    have e3 : l :: (gap ++ c :: (x' ++ t')) = (l :: (gap ++ c :: x')) ++ t' := by simp
    by_cases hlen : 3 ≤ (l :: (gap ++ c :: x')).length
    · rw [e3, List.take_append_of_le_length hlen] at hm
      exact htrip hm
    · have hx' : x' = [] := List.eq_nil_of_length_eq_zero (by simp at hlen; omega)
      have hg' : gap = [] := List.eq_nil_of_length_eq_zero (by simp at hlen; omega)
      subst hx' hg'
      obtain ⟨p', q', r', e4, -, h5, -⟩ := banned_consonants hm
      simp at e4
      obtain ⟨-, rfl, -⟩ := e4
      exact vowel_not_consonant (hone rfl) ((isConsonant_iff _).1 h5)

example : getLujvoWithAnalytics .linked {} false (.list [s%"bangu", s%"ckule", s%"-zba-"]) =
    .ok (s%"bankulzba", 8827, [(0, 3)] ++ (3, 6) :: (6, 9) :: []) ∧ Adjacent (slice s%"bankulzba" (6 - 1) (6 + 1)) 'l' 'z' ∧
    slice s%"bankulzba" 5 8 = s%"lzb" :=
  ⟨by decide +kernel, ⟨[], [], rfl⟩, rfl⟩

end Jvotci
