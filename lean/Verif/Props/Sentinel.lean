import Verif.Props.Found
import Verif.Props.Lujvo

/-!
# C73: how long a lujvo can be

`get_lujvo` looks for a score below 10^100, so there are tanru it finds no lujvo for only because there are too many
components. This is why C26, C41 and other theorems are about words of fewer than 10^96 (or so) letters.
-/

namespace Jvotci
open Spec

theorem pickBest_below {g : Bool} {b : Best} {r : Str × Int × List (Nat × Nat)} (h : pickBest g b = some r) : r.2.1 < 10 ^ 100 := by
  unfold pickBest at h
  have key : ∀ (es : List (Char × (Str × Int × List (Nat × Nat)))) (acc : Option (Str × Int × List (Nat × Nat)) × Int),
      acc.2 ≤ 10 ^ 100 → (∀ r, acc.1 = some r → r.2.1 < 10 ^ 100) →
      ∀ r, (es.foldl (fun (acc : Option (Str × Int × List (Nat × Nat)) × Int) e =>
        if (isVowel e.1 && !g) || (isConsonant e.1 && g) then
          if e.2.2.1 < acc.2 then (some e.2, e.2.2.1) else acc
        else acc) acc).1 = some r → r.2.1 < 10 ^ 100 := by
    intro es
    induction es with
    | nil => intro acc _ ha; exact ha
    | cons e es ih =>
      intro acc h1 h2
      rw [List.foldl_cons]
      apply ih
      · split
        · split
          · dsimp only; omega
          · exact h1
        · exact h1
      · split
        · split
          · rintro r ⟨⟩; omega
          · exact h2
        · exact h2
  exact key _ _ (Int.le_refl _) (by simp) r h

theorem fromList_below {R : Rec} {s : Settings} {g : Bool} {vs : List Str} {r : Str × Int × List (Nat × Nat)}
    (h : getLujvoFromList R s g vs = .ok r) : r.2.1 < 10 ^ 100 := by
  unfold getLujvoFromList at h
  obtain ⟨ll, -, h⟩ := bind_ok h
  obtain ⟨best, -, h⟩ := bind_ok h
  split at h
  · cases h
  · rename_i r' hr
    have hb := pickBest_below hr
    split at h
    · obtain ⟨t, -, h⟩ := bind_ok h
      split at h
      · cases h
      · cases h; exact hb
    · cases h; exact hb

theorem shapeScore_le (x : Str) : shapeScore x ≤ 8 := by
  unfold shapeScore
  repeat' split
  all_goals decide

theorem sumShapes_le (xs : List Str) : sumShapes xs ≤ 8 * xs.length := by
  unfold sumShapes
  induction xs with
  | nil => simp
  | cons x xs ih =>
    have := shapeScore_le x
    simp only [List.map_cons, List.sum_cons, List.length_cons]
    omega

theorem Layout.pieces_le {mz : Bool} {w : Str} {xs : List Str} {ix : List (Nat × Nat)} (h : Layout mz w xs ix) : xs.length ≤ w.length := by
  induction h with
  | one h => have := List.length_pos_iff.2 h.ne; simp; omega
  | snoc _ _ _ hx ih => have := List.length_pos_iff.2 hx.ne; simp; omega

theorem fromList_short {b : Build} {s : Settings} {g : Bool} {vs : List Str} {r : Str × Int × List (Nat × Nat)}
    (h : getLujvoFromList (program b) s g vs = .ok r) : vs.length ≤ r.1.length ∧ r.1.length < 2 * 10 ^ 97 := by
  have hb := fromList_below h
  obtain ⟨xs, hx, hl, tie, ht, hs⟩ := getLujvoFromList_layout h
  have h1 := hl.pieces_le
  have h2 := sumShapes_le xs
  have h3 := hx.length
  rw [weight_count] at hs
  have h4 : vowelCount r.1 ≤ r.1.length := List.length_filter_le ..
  have h5 : tie ≤ 1 := by rcases ht with ⟨h, -⟩ | ⟨h, -⟩ <;> omega
  have h6 : (10 : Int) ^ 100 = 1000 * 10 ^ 97 := by decide
  have h7 : ((10 ^ 97 : Nat) : Int) = 10 ^ 97 := by simp
  have h8 : 0 < (10 : Nat) ^ 97 := by decide
  generalize countChar r.1 'y' = y at *
  generalize (10 : Nat) ^ 97 = N at *
  omega

/-- **C73.** No lujvo of more than 2·10^97 letters, and none that scores 10^100 or more, is returned. -/
theorem C73_bound {b : Build} {s : Settings} {g : Bool} {t : Tanru} {w : Str} {sc : Int} {ix : List (Nat × Nat)}
    (h : getLujvoWithAnalytics b s g t = .ok (w, sc, ix)) : sc < 10 ^ 100 ∧ w.length < 2 * 10 ^ 97 := by
  rw [getLujvoWithAnalytics_program] at h
  obtain ⟨vs, -, h⟩ := bind_ok h
  exact ⟨fromList_below h, (fromList_short h).2⟩

/-- **C73.** A tanru of 2·10^97 or more components has no lujvo. -/
theorem C73_too_many {b : Build} {s : Settings} {g : Bool} {t : Tanru} {ws : List Str} (hw : Words t ws) (hn : 2 * 10 ^ 97 ≤ ws.length)
    {r : Str × Int × List (Nat × Nat)} : getLujvoWithAnalytics b s g t ≠ .ok r := by
  intro h
  rw [hw.list, getLujvoWithAnalytics_program] at h
  obtain ⟨vs, hvs, h⟩ := bind_ok h
  cases mapM_normalise_ok hvs
  have := fromList_short h
  simp only [List.length_map] at this
  omega

/-- **C73.** C54 needs its bound: of that many gismu no lujvo is made, although every rule would allow one. -/
theorem C73_gismu {s : Settings} {g : Bool} {t : Tanru} {ws : List Str} (hw : Words t ws) (hn : 2 * 10 ^ 97 ≤ ws.length)
    (hg : ∀ w ∈ ws, Gismu s.allowMz (reading w)) :
    (∃ w sc, LujvoOf .linked s g (ws.map reading) w sc) ∧ getLujvoWithAnalytics .linked s g t = .error .noLujvo := by
  have h2 : 2 ≤ ws.length := Nat.le_trans (by decide) hn
  have hg' : ∀ v ∈ ws.map reading, Gismu s.allowMz v := by
    intro v hv
    obtain ⟨w, hw, rfl⟩ := List.mem_map.1 hv
    exact hg w hw
  obtain ⟨w, sc, hl, -⟩ := gismu_lujvo (b := .linked) (s := s) (g := g) (vs := ws.map reading) (by simpa using h2) hg'
  refine ⟨⟨w, sc, hl⟩, ?_⟩
  have hno := @C73_too_many .linked s g t ws hw hn
  have hs := plain_spelled (fun v hv => .inl (hg' v hv)) hl
  rw [analytics_of hw (fun w hw => (hs _ (List.mem_map_of_mem hw)).ne)] at hno ⊢
  obtain ⟨zs, hy, hrep, -⟩ := hl
  rcases rafsiListListFrom_of hs hrep with ⟨ll, hll⟩ | ⟨-, -, v, hv, x, j, e, -⟩
  · have hlen := rafsiListListFrom_length hll
    obtain ⟨best, hbest⟩ := total_searchStages (o := combineOpts s g) (ll := ll) (by simp at hlen; omega) (rafsiListListFrom_firm hs hll)
    have hll' : getRafsiListList (program .linked) s (ws.map reading) = .ok ll := hll
    cases hres : getLujvoFromList (program .linked) s g (ws.map reading) with
    | ok r => exact absurd hres hno
    | error er =>
      unfold getLujvoFromList at hres
      rw [hll', ok_bind, hbest, ok_bind] at hres
      split at hres
      · exact hres.symm
      · rename_i r hr
        cases g with
        | true => simp at hres
        | false =>
          obtain ⟨⟨zs', hy', -, hL', ew, -⟩, -⟩ := search_built hll' hbest hr
          obtain ⟨l, hl, hv⟩ := hL'.ends
          obtain ⟨t, ht⟩ := slinkuhi_vowel (y := s.yHyphens) (mz := s.allowMz) (w := r.1) ⟨l, by rw [ew]; exact hl, by simpa using hv⟩
          simp only [Bool.not_false, if_true] at hres
          have : slinkuhiInJvozba (program .linked) s.yHyphens s.allowMz r.1 = .ok t := ht
          rw [this, ok_bind] at hres
          cases t with
          | true => exact hres.symm
          | false => cases hres
  · exact absurd (by rw [e]; simp [List.replicate_succ]) (letters_no_dash (rafsi_letters (.gismu (hg' v hv))))

example : Words (.list (List.replicate (2 * 10 ^ 97) s%"mlatu")) (List.replicate (2 * 10 ^ 97) s%"mlatu") ∧
    2 * 10 ^ 97 ≤ (List.replicate (2 * 10 ^ 97) s%"mlatu").length ∧
    ∀ w ∈ List.replicate (2 * 10 ^ 97) s%"mlatu", Gismu false (reading w) := by
  refine ⟨rfl, by rw [List.length_replicate]; exact Nat.le_refl _, ?_⟩
  intro w hw
  cases (List.mem_replicate.1 hw).2
  exact .ccvcv (by decide) (by decide) (by decide) (by decide)

/-- **C73.** C41 needs its bound: a word of that many rafsi is not a LUJVO, whatever the rafsi. -/
theorem C73_analyse {b : Build} {s : Settings} {w : Str} {ps : List Str} (h : analyseBrivla b s w = .ok (.lujvo, ps)) :
    (ps.filter (fun p => p.length > 2)).length < 2 * 10 ^ 97 := by
  rw [analyseBrivla_program] at h
  obtain ⟨n, hn, h⟩ := analyseR_ok h
  generalize ht : BType.lujvo = t at h
  cases h with
  | gismu => cases ht
  | zihevla => cases ht
  | parts => split at ht <;> cases ht
  | kaha _ _ _ _ hk =>
    obtain ⟨-, -, -, l, r, -, -, hr, -⟩ := jvokaha_ok hk
    have := fromList_short hr
    simp only [List.length_map] at this
    omega

example : analyseBrivla .linked {} s%"bajrybarda" = .ok (.lujvo, [s%"bajr", s%"y", s%"barda"]) := by decide +kernel

end Jvotci
