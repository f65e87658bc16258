import Verif.Lemmas.Score
import Verif.Props.RoundTrip
import Verif.Props.Tables

/-!
# score_lujvo (C35, C44)
-/

namespace Jvotci

open Spec

theorem scoreLujvo_ok {b : Build} {s : Settings} {w : Str} {sc : Int} (h : scoreLujvo b s w = .ok sc) :
    ∃ t ps, analyseBrivla b s w = .ok (t, ps) ∧ t ≠ .gismu ∧ t ≠ .zihevla ∧ sc = (ps.map pieceScore).sum - tiebreak w := by
  obtain ⟨vs, hv, h1⟩ := bind_ok h
  obtain ⟨⟨t, ps⟩, ha, h2⟩ := bind_ok h1
  cases h2
  obtain ⟨t', ps', ha', h3, h4, -⟩ := C30_one_per_rafsi hv
  rw [ha] at ha'
  cases ha'
  exact ⟨t, ps, ha, h3, h4, rfl⟩

/-- **C44.** When `score_lujvo` returns, the word is a lujvo, an extended lujvo or a cmevla, and the score is: 1000 for
each letter, 100 for each `y` in a hyphen `'y`, `y'` or `'y'` (but none for the hyphen `y`), less ten times the shape
score of each rafsi, less the number of vowels, less one where the word, as it was typed, is of one of the shapes of
the tie-break. -/
theorem C44_score_lujvo {b : Build} {s : Settings} {w : Str} {sc : Int} (h : scoreLujvo b s w = .ok sc) :
    ∃ t ps, analyseBrivla b s w = .ok (t, ps) ∧ (t = .lujvo ∨ t = .extendedLujvo ∨ t = .cmevla) ∧
      sc = 1000 * ((reading w).length : Int) + 100 * ((countChar (reading w) 'y' : Int) - ps.count s%"y")
        - 10 * ((((ps.filter (fun p => ¬ Hyphen p)).map shapeScore).sum : Nat) : Int) - vowelCount (reading w)
        - if TieShape w then 1 else 0 := by
  obtain ⟨t, ps, ha, h1, h2, e⟩ := scoreLujvo_ok h
  refine ⟨t, ps, ha, by cases t <;> simp_all, ?_⟩
  obtain ⟨n, hn, hA⟩ := analyseR_ok ha
  have hb := hA.bare ⟨h1, h2⟩
  have hf : ps.flatten = reading w := C01_pieces_spell_word ha
  rw [e, pieceScore_sum hb, hf, weight_count, tiebreak_tie, shapes_filter]
  omega

example : scoreLujvo .linked {} s%"fagygexykarcymo'u" = .ok 16815 ∧
    analyseBrivla .linked {} s%"fagygexykarcymo'u" =
      .ok (.lujvo, [s%"fag", s%"y", s%"gex", s%"y", s%"karc", s%"y", s%"mo'u"]) := by decide +kernel
/-- An extended lujvo, a cmevla, the tie-break. -/
example : scoreLujvo .linked {} s%"spageti'ykerlo" = .ok 14085 ∧ scoreLujvo .linked {} s%"latkerl" = .ok 6928 ∧
    scoreLujvo .linked {} s%"voizba" = .ok 5846 := by decide +kernel

/-- **C44.** Two spellings of a word (as in C17) have scores that differ by at most one. -/
theorem C44_spelling {b : Build} {s : Settings} {w w' : Str} {sc sc' : Int} (hr : SameWord w w')
    (h : scoreLujvo b s w = .ok sc) (h' : scoreLujvo b s w' = .ok sc') : sc - sc' ≤ 1 ∧ sc' - sc ≤ 1 := by
  obtain ⟨t, ps, ha, -, -, e⟩ := scoreLujvo_ok h
  obtain ⟨t', ps', ha', -, -, e'⟩ := scoreLujvo_ok h'
  rw [(C17_spelling_variants hr b s).1, ha'] at ha
  cases ha
  rw [tiebreak_tie] at e e'
  split at e <;> split at e' <;> omega

example : SameWord s%"VOIZBA" s%"voizba" ∧ scoreLujvo .linked {} s%"VOIZBA" = .ok 5847 ∧ scoreLujvo .linked {} s%"voizba" = .ok 5846 :=
  ⟨⟨_, _, .cons (.upper (by decide) (by decide) (by decide)) (.cons (.upper (by decide) (by decide) (by decide))
    (.cons (.upper (by decide) (by decide) (by decide)) (.cons (.upper (by decide) (by decide) (by decide))
    (.cons (.upper (by decide) (by decide) (by decide)) (.cons (.upper (by decide) (by decide) (by decide)) .nil))))),
    by decide, by decide, .inl rfl, .inl rfl, by decide, by decide⟩, by decide +kernel⟩

/-- The letters of a made word are the normal ones. -/
theorem Layout.reading {mz : Bool} {w : Str} {xs : List Str} {ix : List (Nat × Nat)} (h : Layout mz w xs ix) : reading w = w := by
  have hl : ∀ c ∈ w, readChar c = [c] ∧ c ≠ '.' := by
    induction h with
    | one h => exact fun c hc => readChar_letter (h.letters c hc)
    | snoc _ hg _ hx ih =>
      intro c hc
      rcases List.mem_append.1 hc with hc | hc
      · rcases List.mem_append.1 hc with hc | hc
        · exact ih c hc
        · have key : ∀ q ∈ [[], s%"y", s%"'y", s%"y'", s%"'y'", s%"r", s%"n"], ∀ c ∈ q, readChar c = [c] ∧ c ≠ '.' := by decide
          refine key _ ?_ c hc
          unfold Gap Hyphen at hg
          simp only [List.mem_cons, List.not_mem_nil, or_false] at hg ⊢
          grind
      · exact readChar_letter (hx.letters c hc)
  have hf := flatMap_readChar_stable (fun d hd => (hl d hd).1)
  unfold Spec.reading
  split
  · rename_i cs 
    exact absurd rfl (hl '.' (by simp)).2
  · exact hf

/-- **C35.** What the two scores have to do with each other, for a word that is read back as it was made:
`score_lujvo` does not count the 100 points of a hyphen `y`; and it applies the tie-break only if the whole word has
one of its shapes, while the search applies it if the first two components have. -/
theorem C35_relation_partial {b : Build} {s : Settings} {g : Bool} {t : Tanru} {w : Str} {sc sc' : Int} {ix : List (Nat × Nat)}
    {ty : BType} {ps : List Str} (h : getLujvoWithAnalytics b s g t = .ok (w, sc, ix))
    (ha : analyseBrivla b s w = .ok (ty, ps)) (hix : getRafsiIndices ps = ix) (h' : scoreLujvo b s w = .ok sc') :
    ∃ tie tie' : Int, (tie = 1 ∧ TieAt w ix ∨ tie = 0 ∧ ¬ TieAt w ix) ∧ (tie' = 1 ∧ TieShape w ∨ tie' = 0 ∧ ¬ TieShape w) ∧
      sc' = sc - 100 * (ps.count s%"y" : Int) + tie - tie' := by
  have hw : ∃ ws, Words t ws := by
    cases t with
    | str text => exact C18_every_text text
    | list l => exact ⟨l, rfl⟩
  obtain ⟨ws, hw⟩ := hw
  obtain ⟨xs, -, hl, -⟩ := analytics_layout hw h
  obtain ⟨tie, htie, e⟩ := C24_score h
  obtain ⟨ty', ps', ha', -, e'⟩ := C44_score_lujvo h'
  rw [ha] at ha'
  cases ha'
  have hrd := hl.reading
  have hfl := C01_pieces_spell_word ha
  have hs := (C13_rafsi_indices ps).1
  rw [hix, hfl, hrd] at hs
  have hsum : ((ps.filter (fun p => ¬ Hyphen p)).map shapeScore).sum = (ix.map (fun p => shapeScore (slice w p.1 p.2))).sum := by
    rw [← hs, List.map_map]
    rfl
  rw [hrd, hsum] at e'
  refine ⟨tie, if TieShape w then 1 else 0, htie, by split <;> simp_all, ?_⟩
  rw [e', e]
  omega

/-- With two components the two tie-breaks are the same. -/
theorem tie_two {mz : Bool} {w : Str} {xs : List Str} {ix : List (Nat × Nat)} (h : Layout mz w xs ix) (h2 : ix.length = 2) :
    TieAt w ix ↔ TieShape w := by
  cases h with
  | one => simp at h2
  | @snoc w0 xs ix g x h hg _ hx =>
    cases h with
    | snoc h _ _ _ =>
      cases h <;> simp at h2
    | one hx0 =>
      have hlen : w0.length + g.length + x.length = (w0 ++ g ++ x).length := by simp [Nat.add_assoc]
      constructor
      · rintro ⟨p, q, rest, e, ht, -⟩
        cases e
        dsimp only at ht
        rwa [hlen, List.take_length] at ht
      · intro ht
        refine ⟨_, _, _, rfl, ?_, ?_⟩
        · dsimp only; rwa [hlen, List.take_length]
        · exact hlen.symm

/-- **C35.** The two scores agree for a word of two components, read back as it was made, without a hyphen `y`. -/
theorem C35_agree_partial {b : Build} {s : Settings} {g : Bool} {t : Tanru} {w : Str} {sc sc' : Int} {ix : List (Nat × Nat)}
    {ty : BType} {ps : List Str} (h : getLujvoWithAnalytics b s g t = .ok (w, sc, ix)) (h2 : ix.length = 2)
    (ha : analyseBrivla b s w = .ok (ty, ps)) (hix : getRafsiIndices ps = ix) (hy : s%"y" ∉ ps)
    (h' : scoreLujvo b s w = .ok sc') : sc' = sc := by
  have hw : ∃ ws, Words t ws := by
    cases t with
    | str text => exact C18_every_text text
    | list l => exact ⟨l, rfl⟩
  obtain ⟨ws, hw⟩ := hw
  obtain ⟨xs, -, hl, -⟩ := analytics_layout hw h
  obtain ⟨tie, tie', h3, h4, e⟩ := C35_relation_partial h ha hix h'
  rw [tie_two hl h2] at h3
  have : ps.count s%"y" = 0 := List.count_eq_zero.2 hy
  rw [this] at e
  grind

/-- **C35.** For a tanru of known gismu and cmavo `score_lujvo` gives a value, and it is related to the reported one as
above. -/
theorem C35_known_partial {b : Build} {s : Settings} {g : Bool} {t : Tanru} {ws : List Str} {w : Str} {sc : Int} {ix : List (Nat × Nat)}
    (hws : Words t ws) (hv : ∀ v ∈ ws, Known s.allowMz (reading v)) (h : getLujvoWithAnalytics b s g t = .ok (w, sc, ix))
    (hlen : w.length < 10 ^ 96) :
    ∃ ty ps, analyseBrivla b s w = .ok (ty, ps) ∧ getRafsiIndices ps = ix ∧
      ∃ tie tie' : Int, (tie = 1 ∧ TieAt w ix ∨ tie = 0 ∧ ¬ TieAt w ix) ∧ (tie' = 1 ∧ TieShape w ∨ tie' = 0 ∧ ¬ TieShape w) ∧
      scoreLujvo b s w = .ok (sc - 100 * (ps.count s%"y" : Int) + tie - tie') := by
  obtain ⟨ps, ha, hix⟩ := C38_gismu_partial hws (fun v hvm => (hv v hvm).form) h hlen
  have hvel : getVeljvo b s w = .ok (ws.map reading) := by
    refine C43_round_trip_partial hws hv (g := g) (t := t) ?_ hlen
    unfold getLujvo
    rw [h]
    rfl
  have hsc : scoreLujvo b s w = .ok ((ps.map pieceScore).sum - tiebreak w) := by
    unfold scoreLujvo
    rw [hvel, ok_bind, ha, ok_bind]
  obtain ⟨tie, tie', h1, h2, e⟩ := C35_relation_partial h ha hix hsc
  exact ⟨_, ps, ha, hix, tie, tie', h1, h2, by rw [hsc, e]⟩

example : getLujvoWithAnalytics .linked {} false (.str s%"lujvo zbasu") = .ok (s%"jvozba", 5858, [(0, 3), (3, 6)]) ∧
    analyseBrivla .linked {} s%"jvozba" = .ok (.lujvo, [s%"jvo", s%"zba"]) ∧ getRafsiIndices [s%"jvo", s%"zba"] = [(0, 3), (3, 6)] ∧
    s%"y" ∉ [s%"jvo", s%"zba"] ∧ scoreLujvo .linked {} s%"jvozba" = .ok 5858 := by decide +kernel

/-- **C35** is false of the code: the hyphen `y` costs 1100 points in the search and 1000 in `score_lujvo`. -/
theorem C35_false : ∃ t w sc ix sc', getLujvoWithAnalytics .linked {} false t = .ok (w, sc, ix) ∧
    scoreLujvo .linked {} w = .ok sc' ∧ sc' = sc - 300 :=
  ⟨.str s%"fagri genxu karce moklu", s%"fagygexykarcymo'u", 17115, [(0, 3), (4, 7), (8, 12), (13, 17)], 16815, by decide +kernel⟩

/-- It is false also without `y`: the tie-break of the search looks at the first two components only. -/
theorem C35_false_tie : ∃ t w sc ix sc', getLujvoWithAnalytics .linked {} false t = .ok (w, sc, ix) ∧
    'y' ∉ w ∧ scoreLujvo .linked {} w = .ok sc' ∧ sc' = sc + 1 :=
  ⟨.str s%"djacu gerna karce", s%"jaurgenkarce", 11854, [(0, 3), (4, 7), (7, 12)], 11855, by decide +kernel⟩

end Jvotci
