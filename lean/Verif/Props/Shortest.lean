import Verif.Lemmas.Short
import Verif.Props.Search

/-!
# C70: the length of what `get_lujvo` returns
-/

namespace Jvotci

open Spec

theorem rafsi_vowels {mz : Bool} {x : Str} (h : pattern x ∈ [s%"CVV", s%"CV'V"]) :
    Rafsi mz x ∧ ∃ u a, x = u ++ [a] ∧ Vowel a := by
  simp only [List.mem_cons, List.not_mem_nil, or_false] at h
  simp only [pattern_eq_cons, pattern_nil, pat_c, pat_v, pat_h] at h
  rcases h with ⟨a, _, rfl, ha, b, _, rfl, hb, c, _, rfl, hc, rfl⟩ | ⟨a, _, rfl, ha, b, _, rfl, hb, _, _, rfl, rfl, c, _, rfl, hc, rfl⟩
  · rw [isConsonant_iff] at ha; rw [isVowel_iff] at hb hc
    exact ⟨.cvv ha hb hc, [a, b], c, rfl, hc⟩
  · rw [isConsonant_iff] at ha; rw [isVowel_iff] at hb hc
    exact ⟨.cvhv ha hb hc, [a, b, '\''], c, rfl, hc⟩

/-- A candidate has fewer y than components. -/
theorem legal_ys {s : Settings} {g : Bool} {zs : List Slot} {h : Str} (hL : Legal s g zs h) (ht : ∀ z ∈ zs, Tidy s.allowMz z)
    (hk : ∀ z rest, zs = z :: rest → z.Written true false) : (wordOf zs h).count 'y' + 1 ≤ zs.length := by
  obtain ⟨y, z, rest, rfl, hf⟩ := hL.first
  obtain ⟨l, hl, hend⟩ := hL.ends
  have hly : l ≠ 'y' := by
    rintro rfl
    split at hend <;> exact absurd hend (by decide)
  have hy := ht y (by simp)
  have hfirst : y.text.count 'y' + h.count 'y' ≤ 1 := by
    rcases hf with ⟨h1, rfl, -⟩ | ⟨h1, h2, rfl⟩
    · rcases hy.ys with h0 | ⟨-, h0⟩
      · rw [h0]; decide
      · rw [h1] at h0; cases h0
    · split
      · rename_i hc
        have hvv := hy.glued (rafsi_vowels hc.1).1 hc.1
        obtain ⟨t, e, htr⟩ := hk y _ rfl
        rw [hvv] at htr
        have h0 : y.text.count 'y' = 0 := by
          rcases hy.ys with h0 | ⟨-, h0⟩
          · exact h0
          · simp only [Trailing] at htr
            rcases htr with rfl | ⟨rfl, -⟩ | ⟨-, h', -⟩
            · obtain ⟨-, u, a, h', ha⟩ := rafsi_vowels (mz := s.allowMz) hc.1
              rw [e, h'] at h0
              simp at h0
              subst h0
              exact absurd ha (by decide)
            · rw [e] at h0; simp at h0
            · cases h'
        rw [h0]
        split
        · decide
        · split <;> decide
      · rcases hy.ys with h0 | ⟨h0, -⟩ <;> rw [h0] <;> decide
  have hrest := texts_y (zs := z :: rest) (fun y hy => ht y (List.mem_cons_of_mem _ hy)) (by simp)
  simp only [wordOf, List.count_append] at hl ⊢
  by_cases hn : ((z :: rest).map Slot.text).flatten = []
  · rw [hn]; simp; omega
  · rw [List.getLast?_append] at hl
    have := hrest (by
      cases hg : ((z :: rest).map Slot.text).flatten.getLast? with
      | none => exact absurd (List.getLast?_eq_none_iff.1 hg) hn
      | some c => rw [hg] at hl; simp at hl; rw [hl]; simpa using hly)
    simp only [List.length_cons] at this ⊢
    omega

theorem first_written {b : Build} {s : Settings} {vs : List Str} {zs : List Slot} (h : Represents b s vs.length 0 vs zs) (hn : 2 ≤ vs.length) :
    ∀ z rest, zs = z :: rest → z.Written true false := by
  rintro z rest rfl
  generalize vs.length = n at h hn
  cases h with
  | cons _ hw _ =>
    have : ((0 + 1 : Nat) == n) = false := by
      rw [beq_eq_false_iff_ne]; omega
    rw [this] at hw
    exact hw

theorem legal_vowelCount {s : Settings} {g : Bool} {zs : List Slot} {h : Str} (hL : Legal s g zs h) :
    vowelCount (wordOf zs h) = vowelCount (zs.map Slot.text).flatten := by
  obtain ⟨y, z, rest, rfl, hf⟩ := hL.first
  have h0 : vowelCount h = 0 := by
    rcases firstHyphen_letters hf with h | h | h | h | h <;> rw [h] <;> decide
  simp only [wordOf, vowelCount_append, List.map_cons, List.flatten_cons]
  omega

theorem cost_near {b : Build} {s : Settings} {g : Bool} {vs : List Str} {ll : List (List RafsiOpt)} {w w' : Str} {sc sc' : Int}
    (hll : rafsiListListFrom (program b) s vs.length 0 vs = .ok ll) (h : LujvoOf b s g vs w sc) (h' : LujvoOf b s g vs w' sc')
    (hle : sc ≤ sc') : 1000 * w.length + 99 ≤ 1000 * w'.length + 182 * vs.length := by
  obtain ⟨zs, hy, hr, hL, rfl, rfl⟩ := h
  obtain ⟨zs', hy', hr', hL', rfl, rfl⟩ := h'
  have ht := represents_tidy hll hr
  have ht' := represents_tidy hll hr'
  have hlen := represents_length hr
  have hlen' := represents_length hr'
  have h2 : 2 ≤ vs.length := by
    obtain ⟨y, z, rest, e, -⟩ := hL.first
    rw [e] at hlen
    simp at hlen; omega
  have hw := represents_worth hll hr hr'
  have hys := legal_ys hL' ht' (first_written hr' h2)
  have e1 := texts_vowels ht
  have e2 := texts_vowels ht'
  unfold cost at hle
  rw [legal_vowelCount hL, legal_vowelCount hL'] at hle
  generalize (zs.map (fun z => worth z.rafsi)).sum = q at *
  generalize (zs'.map (fun z => worth z.rafsi)).sum = q' at *
  generalize (wordOf zs hy).length = L at *
  generalize (wordOf zs' hy').length = L' at *
  generalize (wordOf zs hy).count 'y' = Y at *
  generalize (wordOf zs' hy').count 'y' = Y' at *
  generalize (zs.map (fun z => shapeScore z.rafsi)).sum = S at *
  generalize (zs'.map (fun z => shapeScore z.rafsi)).sum = S' at *
  generalize vowelCount (zs.map Slot.text).flatten = V at *
  generalize vowelCount (zs'.map Slot.text).flatten = V' at *
  split at hle <;> split at hle <;> omega

/-- **C70.** No lujvo for the tanru is much shorter than the one `get_lujvo` returns, which has the lowest score: in thousandths of
a letter, the difference is less than 182 for each component. -/
theorem C70_nearly_shortest {b : Build} {s : Settings} {g : Bool} {t : Tanru} {ws : List Str} {w w' : Str} {sc sc' : Int}
    {ix : List (Nat × Nat)} (hw : Words t ws) (h : getLujvoWithAnalytics b s g t = .ok (w, sc, ix))
    (h' : LujvoOf b s g (ws.map reading) w' sc') : 1000 * w.length + 99 ≤ 1000 * w'.length + 182 * ws.length := by
  obtain ⟨h1, h2⟩ := C25_lowest_score hw h
  rw [hw.list, getLujvoWithAnalytics_program] at h
  obtain ⟨vs, hvs, h⟩ := bind_ok h
  cases mapM_normalise_ok hvs
  unfold getLujvoFromList at h
  obtain ⟨ll, hll, h⟩ := bind_ok h
  unfold getRafsiListList at hll
  have := cost_near hll h1 h' (h2 _ _ h')
  simpa using this

example : getLujvoWithAnalytics .linked {} false (.list [s%"bangu", s%"klama"]) = .ok (s%"baukla", 5846, [(0, 3), (3, 6)]) ∧
    LujvoOf .linked {} false [s%"bangu", s%"klama"] s%"banklama" 7917 :=
  ⟨by decide +kernel, lujvo_banklama⟩

/-- **C70.** Up to six components, no lujvo for the tanru is shorter than the one `get_lujvo` returns. -/
theorem C70_shortest {b : Build} {s : Settings} {g : Bool} {t : Tanru} {ws : List Str} {w w' : Str} {sc sc' : Int}
    {ix : List (Nat × Nat)} (hw : Words t ws) (h : getLujvoWithAnalytics b s g t = .ok (w, sc, ix)) (hn : ws.length ≤ 6)
    (h' : LujvoOf b s g (ws.map reading) w' sc') : w.length ≤ w'.length := by
  have := C70_nearly_shortest hw h h'
  omega

example : getLujvoWithAnalytics .linked {} false (.list [s%"bangu", s%"klama"]) = .ok (s%"baukla", 5846, [(0, 3), (3, 6)]) ∧
    LujvoOf .linked {} false [s%"bangu", s%"klama"] s%"banklama" 7917 ∧ s%"baukla".length ≤ s%"banklama".length :=
  ⟨by decide +kernel, lujvo_banklama, C70_shortest (t := .list [s%"bangu", s%"klama"]) (ws := [s%"bangu", s%"klama"]) rfl
    (sc := 5846) (ix := [(0, 3), (3, 6)]) (by decide +kernel) (by decide) lujvo_banklama⟩

/-! ## Not for every number of components -/

/-- batci, 56 times nazbi, and bangu. -/
def longTanru : List Str := s%"batci" :: (List.replicate 56 s%"nazbi" ++ [s%"bangu"])

theorem represents_replicate {b : Build} {s : Settings} {n : Nat} {v : Str} {vs : List Str} {z : Slot} {zs : List Slot}
    (hu : Usable b s v z.rafsi z.kind) (hw : z.Written false false) : ∀ {k i : Nat}, 0 < i → i + k < n →
    Represents b s n (i + k) vs zs → Represents b s n i (List.replicate k v ++ vs) (List.replicate k z ++ zs)
  | 0, _, _, _, h => h
  | k + 1, i, hi, hn, h => by
    refine .cons hu ?_ (represents_replicate hu hw (by omega) (by omega) (by rwa [show i + 1 + k = i + (k + 1) by omega]))
    rw [show (i == 0) = false by rw [beq_eq_false_iff_ne]; omega, show (i + 1 == n) = false by rw [beq_eq_false_iff_ne]; omega]
    exact hw

theorem beside_replicate {y z p q : Slot} : ∀ {k : Nat}, Beside (List.replicate (k + 1) y ++ [z]) p q → p = y ∧ (q = y ∨ q = z)
  | 0, h => by
    obtain ⟨rfl, rfl⟩ := beside_two.1 h
    exact ⟨rfl, .inr rfl⟩
  | k + 1, h => by
    rcases beside_cons.1 h with ⟨rfl, rfl⟩ | h
    · exact ⟨rfl, .inl rfl⟩
    · exact beside_replicate h

/-- A lujvo for it of 174 letters. -/
theorem lujvo_batnaz : ∃ w sc, LujvoOf .linked {} false longTanru w sc ∧ w.length = 174 := by
  refine ⟨_, _, ⟨⟨s%"bat", .cvc, s%"bat"⟩ :: (List.replicate 56 ⟨s%"naz", .cvc, s%"naz"⟩ ++ [⟨s%"bau", .vv, s%"bau"⟩]), [], ?_, ?_, rfl, rfl⟩,
    by decide +kernel⟩
  · refine .cons (.listed (rs := [s%"bat"]) (by decide) (by decide +kernel) (by decide) (.inr (.inr (.inl ⟨by decide, rfl⟩)))) ⟨[], rfl, .inl rfl⟩ ?_
    refine represents_replicate (z := ⟨s%"naz", .cvc, s%"naz"⟩) (.listed (rs := [s%"naz", s%"zbi"]) (by decide) (by decide +kernel) (by decide)
      (.inr (.inr (.inl ⟨by decide, rfl⟩)))) ⟨[], rfl, .inl rfl⟩ (by decide) (by decide) ?_
    exact .cons (.listed (rs := [s%"ban", s%"bau"]) (by decide) (by decide +kernel) (by decide) (.inl ⟨by decide, rfl⟩)) ⟨[], rfl, .inl rfl⟩ .nil
  · refine ⟨⟨_, _, _, rfl, .inr ⟨by decide, by decide, by decide⟩⟩, ?_, ?_, ?_, .inr (.inr (by decide +kernel)), 'u', by decide +kernel, by decide⟩
    · intro y z h
      have : (y = ⟨s%"bat", .cvc, s%"bat"⟩ ∧ z = ⟨s%"naz", .cvc, s%"naz"⟩) ∨ y = ⟨s%"naz", .cvc, s%"naz"⟩ ∧
          (z = ⟨s%"naz", .cvc, s%"naz"⟩ ∨ z = ⟨s%"bau", .vv, s%"bau"⟩) := by
        rcases beside_cons.1 h with h | h
        · exact .inl h
        · exact .inr (beside_replicate h)
      rcases this with ⟨rfl, rfl⟩ | ⟨rfl, rfl | rfl⟩ <;>
      · refine ⟨?_, ?_, ?_⟩
        · intro a b ha hb _ _
          cases ha; cases hb; decide
        · intro a ha
          cases ha; decide
        · intro h; exact absurd h (by decide)
    · intro _ h
      obtain ⟨⟨a, b, ha, hb, h⟩, -⟩ := (tosmabru_cons ⟨by decide, rfl⟩).1 h
      cases ha; cases hb
      exact absurd h (by decide)
    · rintro _ ⟨y, rest, e, -, h, -⟩
      cases e
      exact absurd h (by decide)

set_option maxRecDepth 100000 in
/-- **C70 fails for many components**: for batci, 56 times nazbi and bangu `get_lujvo` returns a lujvo of 175 letters, batyzbizbi…zbibau,
and batnaznaz…nazbau, of 174 letters, is a lujvo as well. The search takes the lower score, and each zbi scores 20 less than naz. -/
theorem C70_false_many : ∃ w sc ix, getLujvoWithAnalytics .linked {} false (.list longTanru) = .ok (w, sc, ix) ∧ longTanru.length = 58 ∧
    ∃ w' sc', LujvoOf .linked {} false (longTanru.map reading) w' sc' ∧ w'.length < w.length := by
  have e : longTanru.map reading = longTanru := by decide +kernel
  have h : (getLujvoWithAnalytics .linked {} false (.list longTanru)).map (fun r => r.1.length) = .ok 175 := by decide +kernel
  cases hr : getLujvoWithAnalytics .linked {} false (.list longTanru) with
  | error er => rw [hr] at h; cases h
  | ok r =>
    obtain ⟨w, sc, ix⟩ := r
    rw [hr] at h
    simp only [Except.map, Except.ok.injEq] at h
    obtain ⟨w', sc', h', hl⟩ := lujvo_batnaz
    exact ⟨w, sc, ix, rfl, rfl, w', sc', by rw [e]; exact h', by omega⟩

end Jvotci
